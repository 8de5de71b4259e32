import Verif.Model.Expectations
/-!
# C08 – in-flight expectations count each operation exactly once

The specification speaks about the raw history of calls only.
-/
namespace MCM.Expectations

/-! ## Independent specification -/

/-- the call is an announcement (or withdrawal) for key `k` -/
def Announces (k : String) : Op → Prop
  | .expectCreations k' _ _ => k' = k
  | .expectDeletions k' _ _ => k' = k
  | .deleteExpectations k' => k' = k
  | _ => False

/-- number of creations observed for `k` in a stretch of history -/
def creationsSeen (k : String) (ops : List Op) : Nat := ops.count (.creationObserved k)

/-- five minutes, in nanoseconds -/
def fiveMinutes : Int := 300000000000

/-! ## Lemmas -/

theorem lower_exps_same (s : State) (k : String) (e : Exp) (h : s.exps k = some e) (a d : Int) :
    (lower s k a d).exps k = some { e with add := e.add - a, del := e.del - d } := by
  simp [lower, h, upd]

theorem lower_exps_other (s : State) (k k' : String) (h : k ≠ k') (a d : Int) : (lower s k' a d).exps k = s.exps k := by
  unfold lower; split <;> simp [upd, h]

theorem lower_uids (s : State) (k : String) (a d : Int) : (lower s k a d).uids = s.uids := by
  unfold lower; split <;> rfl

theorem lower_none (s : State) (k : String) (h : s.exps k = none) (k' : String) (a d : Int) : (lower s k' a d).exps k = none := by
  unfold lower; split
  · exact h
  · rename_i e he
    by_cases hk : k = k'
    · subst hk; rw [h] at he; simp at he
    · simp [upd, hk, h]

/-- after an announcement of creations -/
theorem foldl_create (k : String) (post : List Op) : ∀ (s : State) (a d t : Int),
    (∀ op ∈ post, ¬ Announces k op) → s.exps k = some ⟨a, d, t⟩ → d ≤ 0 →
    ∃ d', d' ≤ 0 ∧ (post.foldl step s).exps k = some ⟨a - creationsSeen k post, d', t⟩ := by
  induction post with
  | nil => intro s a d t _ h hd; exact ⟨d, hd, by simpa [creationsSeen] using h⟩
  | cons op post ih =>
    intro s a d t hna h hd
    have hna' : ∀ op ∈ post, ¬ Announces k op := fun o ho => hna o (by simp [ho])
    have h0 := hna op (by simp)
    cases op with
    | expectCreations k' n now =>
      obtain ⟨d', h1, h2⟩ := ih (step s (.expectCreations k' n now)) a d t hna'
        (by have hk : ¬ k = k' := fun e => h0 e.symm
            simp [step, upd, h, hk]) hd
      exact ⟨d', h1, by simpa [creationsSeen] using h2⟩
    | expectDeletions k' ds now =>
      obtain ⟨d', h1, h2⟩ := ih (step s (.expectDeletions k' ds now)) a d t hna'
        (by have hk : ¬ k = k' := fun e => h0 e.symm
            simp [step, upd, h, hk]) hd
      exact ⟨d', h1, by simpa [creationsSeen] using h2⟩
    | deleteExpectations k' =>
      obtain ⟨d', h1, h2⟩ := ih (step s (.deleteExpectations k')) a d t hna'
        (by have hk : ¬ k = k' := fun e => h0 e.symm
            simp [step, upd, h, hk]) hd
      exact ⟨d', h1, by simpa [creationsSeen] using h2⟩
    | creationObserved k' =>
      by_cases hk : k = k'
      · subst hk
        obtain ⟨d', h1, h2⟩ := ih (step s (.creationObserved k)) (a - 1) (d - 0) t hna'
          (by simp only [step]; rw [lower_exps_same s k _ h]) (by omega)
        refine ⟨d', h1, ?_⟩
        simp only [List.foldl_cons, h2, creationsSeen, List.count_cons_self]
        congr 2; push_cast; omega
      · obtain ⟨d', h1, h2⟩ := ih (step s (.creationObserved k')) a d t hna'
          (by simp only [step]; rw [lower_exps_other s k k' hk, h]) hd
        refine ⟨d', h1, ?_⟩
        have : Op.creationObserved k' ≠ Op.creationObserved k := by intro e; simp at e; exact hk e.symm
        simp only [List.foldl_cons, h2, creationsSeen, List.count_cons_of_ne this]
    | deletionObserved k' x =>
      have hc : creationsSeen k (Op.deletionObserved k' x :: post) = creationsSeen k post := by
        simp [creationsSeen]
      rw [hc]
      have : ∃ d1, d1 ≤ 0 ∧ (step s (.deletionObserved k' x)).exps k = some ⟨a, d1, t⟩ := by
        simp only [step]
        split
        · exact ⟨d, hd, h⟩
        · split
          · simp only
            by_cases hk : k = k'
            · subst hk
              exact ⟨d - 1, by omega, by rw [lower_exps_same s k _ h]; simp⟩
            · exact ⟨d, hd, by rw [lower_exps_other s k k' hk, h]⟩
          · exact ⟨d, hd, h⟩
      obtain ⟨d1, hd1, h1⟩ := this
      exact ih _ a d1 t hna' h1 hd1

/-- after an announcement of deletions -/
theorem foldl_delete (k : String) (post : List Op) : ∀ (s : State) (a t : Int) (U : List String),
    (∀ op ∈ post, ¬ Announces k op) → s.exps k = some ⟨a, U.length, t⟩ → a ≤ 0 → s.uids k = some U → U.Nodup →
    ∃ a', a' ≤ 0 ∧ (post.foldl step s).exps k
      = some ⟨a', (U.filter (fun d => decide (Op.deletionObserved k d ∉ post))).length, t⟩ := by
  induction post with
  | nil => intro s a t U _ h ha _ _; exact ⟨a, ha, by simp [h, List.filter_eq_self.2]⟩
  | cons op post ih =>
    intro s a t U hna h ha hu hnd
    have hna' : ∀ op ∈ post, ¬ Announces k op := fun o ho => hna o (by simp [ho])
    have h0 := hna op (by simp)
    have same : (∀ d, op ≠ .deletionObserved k d) →
        U.filter (fun d => decide (Op.deletionObserved k d ∉ op :: post))
          = U.filter (fun d => decide (Op.deletionObserved k d ∉ post)) := by
      intro hne
      apply List.filter_congr
      intro d _
      have : Op.deletionObserved k d ≠ op := fun e => hne d e.symm
      simp [this]
    cases op with
    | expectCreations k' n now =>
      rw [same (by simp)]
      have hk : ¬ k = k' := fun e => h0 e.symm
      exact ih _ a t U hna' (by simp [step, upd, h, hk]) ha (by simp [step, hu]) hnd
    | expectDeletions k' ds now =>
      rw [same (by simp)]
      have hk : ¬ k = k' := fun e => h0 e.symm
      exact ih _ a t U hna' (by simp [step, upd, h, hk]) ha (by simp [step, upd, hu, hk]) hnd
    | deleteExpectations k' =>
      rw [same (by simp)]
      have hk : ¬ k = k' := fun e => h0 e.symm
      exact ih _ a t U hna' (by simp [step, upd, h, hk]) ha (by simp [step, upd, hu, hk]) hnd
    | creationObserved k' =>
      rw [same (by simp)]
      by_cases hk : k = k'
      · subst hk
        exact ih _ (a - 1) t U hna' (by simp only [step]; rw [lower_exps_same s k _ h]; simp) (by omega)
          (by simp only [step]; rw [lower_uids]; exact hu) hnd
      · exact ih _ a t U hna' (by simp only [step]; rw [lower_exps_other s k k' hk, h]) ha
          (by simp only [step]; rw [lower_uids]; exact hu) hnd
    | deletionObserved k' x =>
      by_cases hk : k = k'
      · subst hk
        by_cases hx : x ∈ U
        · have hlen : ((U.filter (· != x)).length : Int) = (U.length : Int) - 1 := by
            have h1 := hnd.erase_eq_filter x
            rw [← h1, List.length_erase_of_mem hx]
            have : 0 < U.length := List.length_pos_of_mem hx
            omega
          obtain ⟨a', h1, h2⟩ := ih (step s (.deletionObserved k x)) a t (U.filter (· != x)) hna'
            (by simp only [step, hu, hx, if_true]; rw [lower_exps_same s k _ h]; simp [hlen]) ha
            (by simp [step, hu, hx, upd]) (hnd.filter _)
          refine ⟨a', h1, ?_⟩
          simp only [List.foldl_cons, h2, List.filter_filter]
          congr 4
          apply List.filter_congr
          intro d _
          simp
          by_cases hdx : d = x
          · simp [hdx]
          · simp [hdx]
        · have hs : step s (.deletionObserved k x) = s := by simp [step, hu, hx]
          obtain ⟨a', h1, h2⟩ := ih s a t U hna' h ha hu hnd
          refine ⟨a', h1, ?_⟩
          simp only [List.foldl_cons, hs, h2]
          congr 4
          apply List.filter_congr
          intro d hd
          have : d ≠ x := fun e => hx (e ▸ hd)
          simp [this]
      · rw [same (by intro d; simp; intro e; exact absurd e.symm hk)]
        refine ih _ a t U hna' ?_ ha ?_ hnd
        · simp only [step]
          split
          · exact h
          · split
            · simp only; rw [lower_exps_other s k k' hk, h]
            · exact h
        · simp only [step]
          split
          · exact hu
          · split
            · simp [upd, hk, lower_uids, hu]
            · exact hu

theorem foldl_none (k : String) (post : List Op) : ∀ s : State, (∀ op ∈ post, ¬ Announces k op) → s.exps k = none →
    (post.foldl step s).exps k = none := by
  induction post with
  | nil => intro s _ h; exact h
  | cons op post ih =>
    intro s hna h
    have hna' : ∀ op ∈ post, ¬ Announces k op := fun o ho => hna o (by simp [ho])
    have h0 := hna op (by simp)
    refine ih _ hna' ?_
    cases op with
    | expectCreations k' n now =>
      have hk : ¬ k = k' := fun e => h0 e.symm
      simp [step, upd, h, hk]
    | expectDeletions k' ds now =>
      have hk : ¬ k = k' := fun e => h0 e.symm
      simp [step, upd, h, hk]
    | deleteExpectations k' =>
      have hk : ¬ k = k' := fun e => h0 e.symm
      simp [step, upd, h, hk]
    | creationObserved k' => exact lower_none s k h k' 1 0
    | deletionObserved k' x =>
      simp only [step]
      split
      · exact h
      · split
        · exact lower_none s k h k' 0 1
        · exact h

theorem foldl_insertUid (ds : List String) : ∀ l : List String, l.Nodup →
    (ds.foldl insertUid l).Nodup ∧ ∀ x, x ∈ ds.foldl insertUid l ↔ x ∈ l ∨ x ∈ ds := by
  induction ds with
  | nil => intro l h; simp [h]
  | cons d ds ih =>
    intro l h
    have : (insertUid l d).Nodup ∧ ∀ x, x ∈ insertUid l d ↔ x ∈ l ∨ x = d := by
      unfold insertUid; split
      · rename_i hd; exact ⟨h, fun x => ⟨Or.inl, fun hx => hx.elim id (fun e => e ▸ hd)⟩⟩
      · rename_i hd
        refine ⟨?_, by simp⟩
        rw [List.nodup_append]
        refine ⟨h, by simp, ?_⟩
        intro a ha b hb; simp at hb; subst hb; intro e; exact hd (e ▸ ha)
    obtain ⟨h1, h2⟩ := ih _ this.1
    refine ⟨h1, fun x => ?_⟩
    rw [List.foldl_cons, h2, this.2]; simp [or_assoc]

/-! ## C08 -/

/-- The latest announcement for `k` was "`n` creations, at time `t`": the key is reported satisfied exactly when at least
`n` creations were observed for it since, or five minutes have passed — whatever other events, for this or other keys,
are interleaved. -/
theorem C08_creations (k : String) (n t now : Int) (pre post : List Op) (h : ∀ op ∈ post, ¬ Announces k op) :
    satisfied (run (pre ++ .expectCreations k n t :: post)) k now = true
      ↔ n ≤ creationsSeen k post ∨ now - t > fiveMinutes := by
  have hr : run (pre ++ .expectCreations k n t :: post)
      = post.foldl step (step (run pre) (.expectCreations k n t)) := by simp [run]
  obtain ⟨d', h1, h2⟩ := foldl_create k post (step (run pre) (.expectCreations k n t)) n 0 t h
    (by simp [step, upd]) (by omega)
  rw [hr]
  simp only [satisfied, h2]
  split
  · rename_i hc; constructor
    · intro _; left; omega
    · intro _; rfl
  · rename_i hc
    have : ¬ n ≤ creationsSeen k post := by intro hh; apply hc; omega
    simp [this, expectationsTimeout, fiveMinutes]

/-- The latest announcement for `k` was "the deletions `ds`, at time `t`": the key is reported satisfied exactly when every
member of `ds` was observed deleted for this key since — repeated, earlier and unrelated deletions count nothing — or
five minutes have passed. -/
theorem C08_deletions (k : String) (ds : List String) (t now : Int) (pre post : List Op)
    (h : ∀ op ∈ post, ¬ Announces k op) :
    satisfied (run (pre ++ .expectDeletions k ds t :: post)) k now = true
      ↔ (∀ d ∈ ds, Op.deletionObserved k d ∈ post) ∨ now - t > fiveMinutes := by
  have hr : run (pre ++ .expectDeletions k ds t :: post)
      = post.foldl step (step (run pre) (.expectDeletions k ds t)) := by simp [run]
  obtain ⟨hnd, hmem⟩ := foldl_insertUid ds [] (by simp)
  obtain ⟨a', h1, h2⟩ := foldl_delete k post (step (run pre) (.expectDeletions k ds t)) 0 t (ds.foldl insertUid []) h
    (by simp [step, upd]) (by omega) (by simp [step, upd]) hnd
  rw [hr]
  simp only [satisfied, h2]
  have hall : (((ds.foldl insertUid []).filter (fun d => decide (Op.deletionObserved k d ∉ post))).length : Int) ≤ 0
      ↔ ∀ d ∈ ds, Op.deletionObserved k d ∈ post := by
    constructor
    · intro hl d hd
      have h0 : (ds.foldl insertUid []).filter (fun d => decide (Op.deletionObserved k d ∉ post)) = [] := by
        apply List.eq_nil_of_length_eq_zero; omega
      rw [List.filter_eq_nil_iff] at h0
      have := h0 d ((hmem d).2 (Or.inr hd))
      simpa using this
    · intro ha
      have h0 : (ds.foldl insertUid []).filter (fun d => decide (Op.deletionObserved k d ∉ post)) = [] := by
        rw [List.filter_eq_nil_iff]
        intro d hd
        have := (hmem d).1 hd
        simp at this
        simpa using ha d this
      rw [h0]; simp
  split
  · rename_i hc
    exact ⟨fun _ => Or.inl (hall.1 hc.2), fun _ => rfl⟩
  · rename_i hc
    have : ¬ ∀ d ∈ ds, Op.deletionObserved k d ∈ post := fun hh => hc ⟨h1, hall.2 hh⟩
    simp [this, expectationsTimeout, fiveMinutes]

/-- No announcement yet, or the expectations were withdrawn: always satisfied. -/
theorem C08_nothing_announced (k : String) (now : Int) (pre post : List Op) (h : ∀ op ∈ post, ¬ Announces k op) :
    satisfied (run post) k now = true ∧ satisfied (run (pre ++ .deleteExpectations k :: post)) k now = true := by
  constructor
  · have := foldl_none k post init h rfl
    simp [run, satisfied, this]
  · have := foldl_none k post (step (run pre) (.deleteExpectations k)) h (by simp [step, upd])
    have hr : run (pre ++ .deleteExpectations k :: post) = post.foldl step (step (run pre) (.deleteExpectations k)) := by
      simp [run]
    simp [hr, satisfied, this]

/-- every history falls under one of the three theorems: it has a latest announcement for `k` or none -/
theorem C08_cases (k : String) (ops : List Op) :
    (∀ op ∈ ops, ¬ Announces k op) ∨
    ∃ pre op post, ops = pre ++ op :: post ∧ Announces k op ∧ ∀ o ∈ post, ¬ Announces k o := by
  induction ops with
  | nil => left; simp
  | cons x xs ih =>
    rcases ih with h | ⟨pre, op, post, h1, h2, h3⟩
    · by_cases hx : Announces k x
      · right; exact ⟨[], x, xs, rfl, hx, h⟩
      · left; intro o ho; simp at ho; exact ho.elim (fun e => e ▸ hx) (h o)
    · right; exact ⟨x :: pre, op, post, by simp [h1], h2, h3⟩

example : ∀ op ∈ [Op.deletionObserved "a" "x", .expectCreations "b" 3 0, .creationObserved "a"], ¬ Announces "a" op := by
  simp [Announces]
-- a duplicate deletion event does not count twice (instance, for orientation only)
example : satisfied (run [.expectDeletions "a" ["x", "y", "x"] 0, .deletionObserved "a" "x", .deletionObserved "a" "x"]) "a" 5
    = false := by decide +kernel

end MCM.Expectations
