import Verif.Props.Revision
/-!
Bringing the annotations of the current machine set up to date needs one write.
-/
namespace MCM.Revision
open MCM

/-- every annotation of the deployment that is meant to be copied has been copied -/
def Copied (depAnn ann : SMap) : Prop := ∀ e ∈ depAnn, skipped e.1 = true ∨ ann.get e.1 = e.2

theorem copy_id : ∀ (depAnn ann : SMap) (ch : Bool), Copied depAnn ann → copyAnnotations depAnn ann ch = (ann, ch)
  | [], _, _, _ => rfl
  | (k, v) :: rest, ann, ch, h => by
    rw [copyAnnotations, if_pos, copy_id rest ann ch fun e he => h e (by simp [he])]
    rcases h (k, v) (by simp) with h | h
    · simp [h]
    · simp only at h; simp [h]

theorem copy_other : ∀ (depAnn ann : SMap) (ch : Bool) (k : String), k ∉ depAnn.map Prod.fst →
    (copyAnnotations depAnn ann ch).1.get k = ann.get k
  | [], _, _, _, _ => rfl
  | (k', v) :: rest, ann, ch, k, h => by
    have h1 : k ≠ k' := fun e => h (by simp [e])
    have h2 : k ∉ rest.map Prod.fst := fun e => h (by simp only [List.map_cons, List.mem_cons]; exact .inr e)
    rw [copyAnnotations]
    split
    · exact copy_other rest ann ch k h2
    · rw [copy_other rest _ _ k h2, get_set_ne _ _ _ _ h1]

theorem copy_copied : ∀ (depAnn ann : SMap) (ch : Bool), (depAnn.map Prod.fst).Nodup → Copied depAnn (copyAnnotations depAnn ann ch).1
  | [], _, _, _ => by intro e he; cases he
  | (k, v) :: rest, ann, ch, h => by
    rw [List.map_cons, List.nodup_cons] at h
    intro e he
    rw [copyAnnotations]
    rcases List.mem_cons.1 he with rfl | he
    · split
      · rename_i hc
        rw [copy_other rest ann ch _ h.1]
        simpa using hc
      · rw [copy_other rest _ _ _ h.1]; exact .inr (get_set_eq _ _ _)
    · split <;> exact copy_copied rest _ _ h.2 e he

theorem bump_other (newRev : String) (ann : SMap) (ch : Bool) (k : String) (h : skipped k = false) : (bumpRevision newRev ann ch).1.get k = ann.get k := by
  have h1 : k ≠ revKey := fun e => by rw [e, revKey_skipped] at h; cases h
  have h2 : k ≠ histKey := fun e => by rw [e, histKey_skipped] at h; cases h
  unfold bumpRevision
  dsimp only
  split
  · dsimp only
    split
    · rw [get_set_ne _ _ _ _ h2]
      split
      · exact get_set_ne _ _ _ _ h1
      · rfl
    · split
      · exact get_set_ne _ _ _ _ h1
      · rfl
  · rfl

theorem bump_copied {depAnn : SMap} (newRev : String) {ann : SMap} (ch : Bool) (h : Copied depAnn ann) : Copied depAnn (bumpRevision newRev ann ch).1 := by
  intro e he
  cases hk : skipped e.1 with
  | true => exact .inl rfl
  | false =>
    rcases h e he with h | h
    · rw [hk] at h; cases h
    · exact .inr (by rw [bump_other _ _ _ _ hk, h])

/-- the revision cannot be raised any further -/
def Raised (newRev : String) (ann : SMap) : Prop :=
  (if ann.get revKey == "" then some 0 else atoi (ann.get revKey)) = none ∨ atoi newRev = none ∨
  ∃ o n, (if ann.get revKey == "" then some 0 else atoi (ann.get revKey)) = some o ∧ atoi newRev = some n ∧ n ≤ o

theorem bump_raised (newRev : String) (ann : SMap) (ch : Bool) : Raised newRev (bumpRevision newRev ann ch).1 := by
  cases ho : (if ann.get revKey == "" then some 0 else atoi (ann.get revKey)) with
  | none => rw [bump_bad _ _ _ (.inl ho)]; exact .inl ho
  | some o =>
    cases hn : atoi newRev with
    | none => exact .inr (.inl hn)
    | some n =>
      have h := (bump_rev newRev ann ch o n ho hn).1
      refine .inr (.inr ?_)
      by_cases hlt : o < n
      · rw [if_pos hlt] at h
        have he : newRev ≠ "" := fun e => by rw [e, atoi_empty] at hn; cases hn
        refine ⟨n, n, ?_, hn, Int.le_refl _⟩
        rw [get_of_lookup h]
        simp [he, hn]
      · rw [if_neg hlt] at h
        refine ⟨o, n, ?_, hn, by omega⟩
        have hg : (bumpRevision newRev ann ch).1.get revKey = ann.get revKey := by unfold SMap.get; rw [h]
        rw [hg, ho]

theorem raised_bump (newRev : String) (ann : SMap) (h : Raised newRev ann) : bumpRevision newRev ann false = (ann, false) := by
  rcases h with h | h | ⟨o, n, h1, h2, h3⟩
  · exact bump_bad _ _ _ (.inl h)
  · exact bump_bad _ _ _ (.inr h)
  · unfold bumpRevision
    dsimp only
    rw [h1, h2]
    dsimp only
    have : ¬ o < n := by omega
    simp [this]

/-- after one write there is nothing left to write -/
theorem synced_rests (depAnn : SMap) (hk : (depAnn.map Prod.fst).Nodup) (df : Diff) (newRev : String) (ann : SMap) :
    (synced depAnn {} newRev (synced depAnn df newRev ann).1).2 = false := by
  have hc : Copied depAnn (synced depAnn df newRev ann).1 :=
    bump_copied _ _ (bump_copied _ _ (bump_copied _ _ (copy_copied depAnn ann false hk)))
  have hr : Raised newRev (synced depAnn df newRev ann).1 := bump_raised _ _ _
  revert hc hr
  generalize (synced depAnn df newRev ann).1 = a
  intro hc hr
  unfold synced
  dsimp only
  rw [copy_id _ _ _ hc]
  dsimp only
  simp only [raised_bump _ _ hr]
  rfl

end MCM.Revision
