import Verif.Model.Worker
/-!
C47: work items are not lost before the retry limit, and no key is processed twice at once.
-/
namespace MCM.Worker

/-- the number of failures of `k` since its last success, from a log with the newest outcome first -/
def streak (k : String) : List (String × Bool) → Nat
  | [] => 0
  | (x, ok) :: l => if x = k then (if ok then 0 else streak k l + 1) else streak k l

/-- the key will be processed (again): it is marked, or an addition is waiting for its time -/
def Pending (q : Q) (k : String) : Prop := k ∈ q.dirty ∨ k ∈ q.delayed

theorem mem_addAfter (q : Q) (k : String) : k ∈ (q.addAfter k).delayed := by
  show k ∈ if k ∈ q.delayed then q.delayed else k :: q.delayed
  split
  · assumption
  · exact List.mem_cons_self

structure Inv (q : Q) : Prop where
  nodup : q.processing.Nodup
  qnodup : q.queue.Nodup
  queue : ∀ k ∈ q.queue, k ∈ q.dirty ∧ k ∉ q.processing
  dirty : ∀ k ∈ q.dirty, k ∈ q.queue ∨ k ∈ q.processing

theorem inv_add {q : Q} (h : Inv q) (k : String) : Inv (q.add k) := by
  unfold Q.add
  split
  · exact h
  · rename_i hd
    split
    · rename_i hp
      refine ⟨h.nodup, h.qnodup, fun x hx => ⟨List.mem_cons_of_mem _ (h.queue x hx).1, (h.queue x hx).2⟩, fun x hx => ?_⟩
      rcases List.mem_cons.1 hx with rfl | hx
      · exact .inr hp
      · exact h.dirty x hx
    · rename_i hp
      have hq : k ∉ q.queue := fun hq => hd (h.queue k hq).1
      refine ⟨h.nodup, ?_, fun x hx => ?_, fun x hx => ?_⟩
      · show (q.queue ++ [k]).Nodup
        rw [List.nodup_append]
        exact ⟨h.qnodup, List.nodup_cons.2 ⟨List.not_mem_nil, List.nodup_nil⟩, fun a ha b hb => by
          rw [List.mem_singleton.1 hb]; exact fun e => hq (e ▸ ha)⟩
      · rcases List.mem_append.1 hx with hx | hx
        · exact ⟨List.mem_cons_of_mem _ (h.queue x hx).1, (h.queue x hx).2⟩
        · rw [List.mem_singleton.1 hx]; exact ⟨List.mem_cons_self, hp⟩
      · rcases List.mem_cons.1 hx with rfl | hx
        · exact .inl (List.mem_append_right _ (List.mem_singleton.2 rfl))
        · rcases h.dirty x hx with h' | h'
          · exact .inl (List.mem_append_left _ h')
          · exact .inr h'

theorem inv_done {q : Q} (h : Inv q) {k : String} (hk : k ∈ q.processing) : Inv (q.done k) := by
  unfold Q.done
  dsimp only
  have hsub : ∀ x, x ∈ q.processing.filter (· ≠ k) → x ∈ q.processing ∧ x ≠ k := fun x hx => by simpa using hx
  have hkq : k ∉ q.queue := fun hq => (h.queue k hq).2 hk
  split
  · refine ⟨h.nodup.filter _, ?_, fun x hx => ?_, fun x hx => ?_⟩
    · show (q.queue ++ [k]).Nodup
      rw [List.nodup_append]
      exact ⟨h.qnodup, List.nodup_cons.2 ⟨List.not_mem_nil, List.nodup_nil⟩, fun a ha b hb => by
        rw [List.mem_singleton.1 hb]; exact fun e => hkq (e ▸ ha)⟩
    · rcases List.mem_append.1 hx with hx | hx
      · exact ⟨(h.queue x hx).1, fun hp => (h.queue x hx).2 (hsub x hp).1⟩
      · rw [List.mem_singleton.1 hx]
        exact ⟨‹_›, fun hp => (hsub k hp).2 rfl⟩
    · by_cases hxk : x = k
      · subst hxk; exact .inl (List.mem_append_right _ (List.mem_singleton.2 rfl))
      · rcases h.dirty x hx with h' | h'
        · exact .inl (List.mem_append_left _ h')
        · exact .inr (by simp [h', hxk])
  · rename_i hnd
    refine ⟨h.nodup.filter _, h.qnodup, fun x hx => ⟨(h.queue x hx).1, fun hp => (h.queue x hx).2 (hsub x hp).1⟩, fun x hx => ?_⟩
    rcases h.dirty x hx with h' | h'
    · exact .inl h'
    · exact .inr (by
        have : x ≠ k := fun e => hnd (e ▸ hx)
        simp [h', this])

theorem inv_congr {q q' : Q} (h : Inv q) (h1 : q'.queue = q.queue) (h2 : q'.dirty = q.dirty) (h3 : q'.processing = q.processing) :
    Inv q' := by
  refine ⟨by rw [h3]; exact h.nodup, by rw [h1]; exact h.qnodup, ?_, ?_⟩
  · rw [h1, h2, h3]; exact h.queue
  · rw [h1, h2, h3]; exact h.dirty

/-- the state just before `Done` -/
def mid (q : Q) (f : Bool) (k : String) (ok : Bool) : Q :=
  let q1 := { q with log := (k, ok) :: q.log }
  if ok then (if f then q1.forget k else q1) else if q1.failures k < maxRetries then q1.addRateLimited k else q1.forget k

theorem mid_sets (q : Q) (f : Bool) (k : String) (ok : Bool) :
    (mid q f k ok).queue = q.queue ∧ (mid q f k ok).dirty = q.dirty ∧ (mid q f k ok).processing = q.processing := by
  unfold mid
  dsimp only
  repeat' split
  all_goals exact ⟨rfl, rfl, rfl⟩

theorem finish_eq (q : Q) (f : Bool) (k : String) (ok : Bool) : q.finish f k ok = (mid q f k ok).done k := rfl

theorem inv_step {f : Bool} {q q' : Q} (h : Inv q) (hs : Step f q q') : Inv q' := by
  cases hs with
  | add k => exact inv_add h k
  | addAfter k => exact inv_congr h rfl rfl rfl
  | fire a b k he => exact inv_add (q := { q with delayed := a ++ b }) (inv_congr h rfl rfl rfl) k
  | get k rest he =>
    have hk : k ∈ q.queue := by rw [he]; exact List.mem_cons_self
    have hnd := h.qnodup
    rw [he] at hnd
    obtain ⟨hkr, hrn⟩ := List.nodup_cons.1 hnd
    refine ⟨List.nodup_cons.2 ⟨(h.queue k hk).2, h.nodup⟩, hrn, fun x hx => ?_, fun x hx => ?_⟩
    · have hx' : x ∈ q.queue := by rw [he]; exact List.mem_cons_of_mem _ hx
      have hne : x ≠ k := fun e => hkr (e ▸ hx)
      exact ⟨by simp [(h.queue x hx').1, hne], fun hp => by
        rcases List.mem_cons.1 hp with e | hp
        · exact hne e
        · exact (h.queue x hx').2 hp⟩
    · obtain ⟨hx1, hx2⟩ : x ∈ q.dirty ∧ x ≠ k := by simpa using hx
      rcases h.dirty x hx1 with h' | h'
      · rw [he] at h'
        rcases List.mem_cons.1 h' with e | h'
        · exact absurd e hx2
        · exact .inl h'
      · exact .inr (List.mem_cons_of_mem _ h')
  | finish k ok hk =>
    rw [finish_eq]
    obtain ⟨h1, h2, h3⟩ := mid_sets q f k ok
    exact inv_done (inv_congr h h1 h2 h3) (by rw [h3]; exact hk)

theorem reach_inv {f : Bool} {q : Q} (h : Reach f q) : Inv q := by
  induction h with
  | init => exact ⟨List.nodup_nil, List.nodup_nil, fun _ h => (nomatch h), fun _ h => (nomatch h)⟩
  | step _ hs ih => exact inv_step ih hs

/-- C47: No key is processed by two workers at once, in any interleaving. -/
theorem C47_no_concurrent_runs (f : Bool) (q : Q) (h : Reach f q) : q.processing.Nodup := (reach_inv h).nodup

theorem failures_le {q : Q} (h : Reach true q) (k : String) : q.failures k ≤ streak k q.log := by
  induction h with
  | init => exact Nat.le_refl _
  | step _ hs ih =>
    cases hs with
    | add x => unfold Q.add; repeat' split
               all_goals exact ih
    | addAfter x => exact ih
    | fire a b x he => unfold Q.add; repeat' split
                       all_goals exact ih
    | get x rest he => exact ih
    | finish x ok hx =>
      rw [finish_eq]
      have hd : ∀ q : Q, (q.done x).failures = q.failures ∧ (q.done x).log = q.log := by
        intro q; unfold Q.done; dsimp only; split <;> exact ⟨rfl, rfl⟩
      rw [(hd _).1, (hd _).2]
      unfold mid
      dsimp only
      cases ok with
      | true =>
        rw [if_pos rfl, if_pos rfl]
        unfold Q.forget
        dsimp only
        unfold streak
        by_cases hxk : x = k
        · subst hxk; rw [if_pos rfl, if_pos rfl]; exact Nat.zero_le _
        · rw [if_neg (fun e => hxk e.symm), if_neg hxk]; exact ih
      | false =>
        rw [if_neg (by simp)]
        unfold streak
        split
        · unfold Q.addRateLimited Q.addAfter
          dsimp only
          by_cases hxk : x = k
          · subst hxk; rw [if_pos rfl, if_pos rfl]; simp; exact ih
          · rw [if_neg (fun e => hxk e.symm), if_neg hxk]; exact ih
        · unfold Q.forget
          dsimp only
          by_cases hxk : x = k
          · subst hxk; rw [if_pos rfl]; exact Nat.zero_le _
          · rw [if_neg (fun e => hxk e.symm), if_neg hxk]; exact ih

/-- C47: After a failed run the key will be processed again, unless this was at least its sixteenth failure in a row. -/
theorem C47_retried (q : Q) (h : Reach true q) (k : String) :
    Pending (q.finish true k false) k ∨ 16 ≤ streak k (q.finish true k false).log := by
  rw [finish_eq]
  have hd : ∀ q : Q, (q.done k).delayed = q.delayed ∧ (q.done k).log = q.log := by
    intro q; unfold Q.done; dsimp only; split <;> exact ⟨rfl, rfl⟩
  unfold mid
  dsimp only
  rw [if_neg (by simp)]
  split
  · left; right
    rw [(hd _).1]
    exact mem_addAfter _ k
  · rename_i hf
    right
    rw [(hd _).2]
    show 16 ≤ streak k ((k, false) :: q.log)
    rw [streak]
    have hf : ¬ q.failures k < maxRetries := hf
    have := failures_le h k
    have h15 : maxRetries = 15 := rfl
    simp
    omega

/-- C47: A success resets the count of failures. -/
theorem C47_success_resets (q : Q) (k : String) : (q.finish true k true).failures k = 0 := by
  rw [finish_eq]
  have hd : ∀ q : Q, (q.done k).failures = q.failures := by
    intro q; unfold Q.done; dsimp only; split <;> rfl
  rw [hd]
  unfold mid Q.forget
  simp

/-- C47: A request arriving while the key is being processed is not lost: the key is in the queue when the run ends, however it
ends. -/
theorem C47_no_lost_wakeup (f : Bool) (q : Q) (h : Reach f q) (k : String) (hk : k ∈ q.processing) (ok : Bool) :
    k ∈ ((q.add k).finish f k ok).queue := by
  have hi := reach_inv h
  have hdirty : k ∈ (q.add k).dirty := by
    unfold Q.add
    split
    · assumption
    · first
        | exact List.mem_cons_self
        | (split <;> exact List.mem_cons_self)
  rw [finish_eq]
  unfold Q.done
  dsimp only
  rw [(mid_sets (q.add k) f k ok).2.1, if_pos hdirty]
  exact List.mem_append_right _ (List.mem_singleton.2 rfl)

/-- C47: Every key added and not being processed is in the queue. -/
theorem C47_added_is_queued (f : Bool) (q : Q) (h : Reach f q) (k : String) : k ∈ (q.add k).queue ∨ k ∈ (q.add k).processing := by
  have hi := inv_add (reach_inv h) k
  apply hi.dirty
  unfold Q.add
  split
  · assumption
  · split <;> exact List.mem_cons_self

/-- the key is dropped after sixteen failures in a row, not earlier -/
def failing : Nat → Q
  | 0 => ({} : Q).add "k"
  | n + 1 =>
    let q := failing n
    let q := { q with queue := q.queue.tail, processing := "k" :: q.processing, dirty := q.dirty.filter (· ≠ "k") }
    let q := q.finish true "k" false
    match q.delayed with
    | [] => q
    | k :: rest => { q with delayed := rest }.add k

example : (failing 15).queue = ["k"] ∧ (failing 16).queue = [] ∧ (failing 16).delayed = [] := by decide +kernel

end MCM.Worker
