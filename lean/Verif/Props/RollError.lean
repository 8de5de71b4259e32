import Verif.Model.RollError
import Verif.Props.Rolling
/-!
C144: whether a run of a rolling update tells that it failed.
-/
namespace MCM.Rolling

/-! ### Specification -/

/-- the size that the set of the current template is to get next; none: it cannot be calculated -/
def nextSize (d : Dep) (old : List MS) (new : MS) : Option Int :=
  if new.spec < d.replicas then newReplicas d (old ++ [new]) new else some d.replicas

/-- the set of the current template could not be given its next size -/
def NewFails (d : Dep) (env : Env) (old : List MS) (new : MS) : Prop :=
  nextSize d old new = none ∨ env.okNew = false ∧ nextSize d old new ≠ some new.spec

/-- The run stored all that it wanted to store about sizes: with calls that succeed the result is the same. -/
def Unhindered (d : Dep) (env : Env) (old : List MS) (new : MS) : Prop :=
  rolloutStep d env old new = rolloutStep d { env with preOk := true, okNew := true, okClean := fun _ => true, okDown := fun _ => true } old new

/-! ### Proofs -/

theorem reconcileNew_error {d : Dep} {env : Env} {old : List MS} {new : MS} :
    (reconcileNew d env.okNew (old ++ [new]) new).2.2 = true ↔ NewFails d env old new := by
  unfold reconcileNew NewFails nextSize
  by_cases h1 : new.spec = d.replicas
  · rw [if_pos h1, if_neg (by omega), h1]; simp
  rw [if_neg h1]
  by_cases h2 : new.spec > d.replicas
  · rw [if_pos h2, if_neg (by omega)]
    unfold scaleTo
    rw [if_neg h1]
    cases env.okNew <;> simp [Ne.symm h1]
  rw [if_neg h2, if_pos (by omega)]
  cases hn : newReplicas d (old ++ [new]) new with
  | none => simp
  | some n =>
    unfold scaleTo
    dsimp only
    by_cases h3 : new.spec = n
    · rw [if_pos h3, h3]; simp
    · rw [if_neg h3]
      cases env.okNew <;> simp [Ne.symm h3]

theorem cleanup_count (ok : MS → Bool) (maxC : Int) (l : List MS) : ∀ t, (cleanupLoop ok maxC l t).2.2 = false →
    (cleanupLoop ok maxC l t).2.1 - t = specSum l - specSum (cleanupLoop ok maxC l t).1 := by
  induction l with
  | nil => intro t _; simp [cleanupLoop]
  | cons s rest ih =>
    intro t
    unfold cleanupLoop
    split
    · intro _; dsimp only; omega
    split
    · intro h
      have := ih t h
      simp only [specSum, List.map_cons, List.sum_cons] at this ⊢
      omega
    dsimp only
    split
    · intro h; cases h
    unfold scaleTo
    split
    · rename_i h1
      simp only [Bool.false_eq_true, if_false]
      intro h
      have := ih _ h
      simp only [specSum, List.map_cons, List.sum_cons] at this ⊢
      omega
    · cases ok s with
      | false => simp
      | true =>
        simp only [Bool.false_eq_true, if_false, if_true]
        intro h
        have := ih _ h
        simp only [specSum, List.map_cons, List.sum_cons] at this ⊢
        omega

theorem scaleDown_count (ok : MS → Bool) (total : Int) (l : List MS) : ∀ t, (scaleDownLoop ok total l t).2.2 = false →
    (scaleDownLoop ok total l t).2.1 - t = specSum l - specSum (scaleDownLoop ok total l t).1 := by
  induction l with
  | nil => intro t _; simp [scaleDownLoop]
  | cons s rest ih =>
    intro t
    unfold scaleDownLoop
    split
    · intro _; dsimp only; omega
    split
    · intro h
      have := ih t h
      simp only [specSum, List.map_cons, List.sum_cons] at this ⊢
      omega
    dsimp only
    split
    · intro h; cases h
    unfold scaleTo
    split
    · rename_i h1
      simp only [Bool.false_eq_true, if_false]
      intro h
      have := ih _ h
      simp only [specSum, List.map_cons, List.sum_cons] at this ⊢
      omega
    · cases ok s with
      | false => simp
      | true =>
        simp only [Bool.false_eq_true, if_false, if_true]
        intro h
        have := ih _ h
        simp only [specSum, List.map_cons, List.sum_cons] at this ⊢
        omega

theorem cleanup_ok (maxC : Int) (l : List MS) (ok : MS → Bool) (hok : ∀ s, ok s = true) : ∀ t, (cleanupLoop ok maxC l t).2.2 = true → ∃ s ∈ l, s.spec < s.avail := by
  induction l with
  | nil => intro t h; simp [cleanupLoop] at h
  | cons s rest ih =>
    intro t
    unfold cleanupLoop
    split
    · intro h; cases h
    split
    · intro h; obtain ⟨x, hx, h⟩ := ih t h; exact ⟨x, by simp [hx], h⟩
    dsimp only
    split
    · intro _; exact ⟨s, by simp, by omega⟩
    unfold scaleTo
    split
    · simp only [Bool.false_eq_true, if_false]
      intro h; obtain ⟨x, hx, h⟩ := ih _ h; exact ⟨x, by simp [hx], h⟩
    · simp only [hok, Bool.false_eq_true, if_false, if_true]
      intro h; obtain ⟨x, hx, h⟩ := ih _ h; exact ⟨x, by simp [hx], h⟩

theorem scaleDown_ok (total : Int) (l : List MS) (ok : MS → Bool) (hok : ∀ s, ok s = true) : ∀ t, (scaleDownLoop ok total l t).2.2 = true → ∃ s ∈ l, s.spec < 0 := by
  induction l with
  | nil => intro t h; simp [scaleDownLoop] at h
  | cons s rest ih =>
    intro t
    unfold scaleDownLoop
    split
    · intro h; cases h
    split
    · intro h; obtain ⟨x, hx, h⟩ := ih t h; exact ⟨x, by simp [hx], h⟩
    dsimp only
    split
    · intro _; exact ⟨s, by simp, by omega⟩
    unfold scaleTo
    split
    · simp only [Bool.false_eq_true, if_false]
      intro h; obtain ⟨x, hx, h⟩ := ih _ h; exact ⟨x, by simp [hx], h⟩
    · simp only [hok, Bool.false_eq_true, if_false, if_true]
      intro h; obtain ⟨x, hx, h⟩ := ih _ h; exact ⟨x, by simp [hx], h⟩

/-! ### Theorems -/

/-- C144: What is said about old sets is right if no call fails: a scale-down is reported exactly if the old sets are to have fewer machines than before. -/
theorem C144_reported (d : Dep) (env : Env) (hs : env.Sorts) (hok : AllOk env) (all : Int) (old : List MS) (new : MS) (hle : ∀ s ∈ old, 0 ≤ s.avail ∧ s.avail ≤ s.spec) :
    (reconcileOld d env all old new).2 = true ↔ specSum (reconcileOld d env all old new).1 < specSum old := by
  unfold reconcileOld
  dsimp only
  split
  · simp
  split
  · simp
  have hc := cleanup_count env.okClean (all - (d.replicas - maxUnavailable d) - (new.spec - new.avail)) (env.srt1 old) 0
  have he := cleanup_ok (all - (d.replicas - maxUnavailable d) - (new.spec - new.avail)) (env.srt1 old) env.okClean hok.2.2.1 0
  have hsp := (cleanup_spec env.okClean (all - (d.replicas - maxUnavailable d) - (new.spec - new.avail)) (env.srt1 old) 0).2.1
    (mem_perm_forall (hs.1 old) fun s h => ⟨(hle s h).1, by have := hle s h; omega⟩)
  generalize cleanupLoop env.okClean (all - (d.replicas - maxUnavailable d) - (new.spec - new.avail)) (env.srt1 old) 0 = r at *
  rw [specSum_perm (hs.1 old)] at hc
  split
  · rename_i h
    obtain ⟨s, hm, hlt⟩ := he h
    have := hle s ((hs.1 old).mem_iff.1 hm)
    omega
  rename_i h1
  have hc := hc (by simpa using h1)
  have hq : ∀ q : List MS × Int × Bool, q = scaleDownOld d env.okDown env.srt2 (r.1 ++ [new]) r.1 → q.2.2 = false ∧ q.2.1 = specSum r.1 - specSum q.1 := by
    rintro q rfl
    unfold scaleDownOld
    dsimp only
    split
    · exact ⟨rfl, by dsimp only; omega⟩
    · rename_i hlt
      generalize hT : availSum (r.1 ++ [new]) - (d.replicas - maxUnavailable d) = T
      have h2 := scaleDown_ok T (env.srt2 r.1) env.okDown hok.2.2.2 0
      have h3 : (scaleDownLoop env.okDown T (env.srt2 r.1) 0).2.2 = false := by
        cases hx : (scaleDownLoop env.okDown T (env.srt2 r.1) 0).2.2 with
        | false => rfl
        | true =>
          obtain ⟨s, hm, hlt⟩ := h2 hx
          have := (hsp s ((hs.2 r.1).mem_iff.1 hm)).2
          omega
      have h4 := scaleDown_count env.okDown T (env.srt2 r.1) 0 h3
      rw [specSum_perm (hs.2 r.1)] at h4
      exact ⟨h3, by omega⟩
  obtain ⟨h2, h3⟩ := hq _ rfl
  rw [if_neg (by rw [h2]; simp)]
  generalize scaleDownOld d env.okDown env.srt2 (r.1 ++ [new]) r.1 = q at h3 ⊢
  simp only [decide_eq_true_eq]
  obtain ⟨o1, c1, e1⟩ := r
  obtain ⟨o2, c2, e2⟩ := q
  dsimp only at hc h3 ⊢
  omega

theorem reconcileNew_scaled {d : Dep} {ok : Bool} {old : List MS} {new : MS} (h : (reconcileNew d ok (old ++ [new]) new).2.2 = false) :
    ((reconcileNew d ok (old ++ [new]) new).2.1 = false ↔ nextSize d old new = some new.spec) ∧
      ((reconcileNew d ok (old ++ [new]) new).2.1 = false → (reconcileNew d ok (old ++ [new]) new).1 = new) := by
  unfold reconcileNew nextSize at *
  by_cases h1 : new.spec = d.replicas
  · rw [if_pos h1, if_neg (by omega), h1]; simp
  rw [if_neg h1] at h ⊢
  by_cases h2 : new.spec > d.replicas
  · rw [if_pos h2] at h ⊢
    rw [if_neg (by omega)]
    unfold scaleTo at *
    rw [if_neg h1] at h ⊢
    cases ok <;> simp [Ne.symm h1] at h ⊢
  rw [if_neg h2] at h ⊢
  rw [if_pos (by omega)]
  cases hn : newReplicas d (old ++ [new]) new with
  | none => rw [hn] at h; simp at h
  | some n =>
    rw [hn] at h
    unfold scaleTo at *
    dsimp only at h ⊢
    by_cases h3 : new.spec = n
    · rw [if_pos h3, h3]; simp
    · rw [if_neg h3] at h ⊢
      cases ok <;> simp [Ne.symm h3] at h ⊢

/-- **C144**: A run of a rolling update returns an error exactly if the preparation failed, or the set of the current template could not be given its next size, or the status could
not be written, or the clean-up at the end – reached only if nothing was scaled – failed. Whether old sets could be scaled down plays no part. -/
theorem C144_error_iff (d : Dep) (env : Env) (r : Rest) (old : List MS) (new : MS) :
    rolloutError d env r old new = true ↔ env.preOk = false ∨ NewFails d env old new ∨ r.statusOk = false ∨
      (r.complete = true ∧ r.cleanOk = false ∧ nextSize d old new = some new.spec ∧ (reconcileOld d env (specSum (old ++ [new])) (old.filter (fun s => s.spec > 0)) new).2 = false) := by
  unfold rolloutError
  cases hp : env.preOk with
  | false => simp
  | true =>
    rw [if_neg (by simp), ← reconcileNew_error]
    dsimp only
    cases he : (reconcileNew d env.okNew (old ++ [new]) new).2.2 with
    | true => simp
    | false =>
      obtain ⟨h1, h2⟩ := reconcileNew_scaled he
      cases hsc : (reconcileNew d env.okNew (old ++ [new]) new).2.1 with
      | true =>
        rw [hsc] at h1
        simp only [Bool.true_eq_false, false_iff] at h1
        simp [h1]
      | false =>
        rw [h2 hsc, h1.1 hsc]
        cases (reconcileOld d env (specSum (old ++ [new])) (old.filter (fun s => s.spec > 0)) new).2 <;> cases r.statusOk <;> cases r.complete <;> cases r.cleanOk <;> simp

/-- **C144** (partial): A run that could not store a size it wanted to store returns an error, so that the queue tries again – if the calls for old sets succeed. Missing: for old sets
it is false (`C144_old_false`). -/
theorem C144_hindered_partial (d : Dep) (env : Env) (r : Rest) (old : List MS) (new : MS) (hc : ∀ s, env.okClean s = true) (hd : ∀ s, env.okDown s = true)
    (h : ¬ Unhindered d env old new) : rolloutError d env r old new = true := by
  cases hx : rolloutError d env r old new with
  | true => rfl
  | false =>
    refine absurd ?_ h
    have hn : ¬ rolloutError d env r old new = true := by rw [hx]; simp
    rw [C144_error_iff] at hn
    have h1 : env.preOk = true := by
      cases hp : env.preOk with
      | true => rfl
      | false => exact absurd (.inl hp) hn
    have h2 : ¬ NewFails d env old new := fun h => hn (.inr (.inl h))
    obtain ⟨okN, okC, okD, s1, s2, pre⟩ := env
    obtain rfl : okC = fun _ => true := funext hc
    obtain rfl : okD = fun _ => true := funext hd
    dsimp only at h1
    subst h1
    unfold Unhindered
    dsimp only
    cases okN with
    | true => rfl
    | false =>
      -- nothing is to be done for the current set
      have h3 : nextSize d old new = some new.spec := by
        by_cases h : nextSize d old new = some new.spec
        · exact h
        · exact absurd (.inr ⟨rfl, h⟩) h2
      have h4 : ∀ ok, reconcileNew d ok (old ++ [new]) new = (new, false, false) := by
        intro ok
        unfold reconcileNew
        unfold nextSize at h3
        by_cases h5 : new.spec = d.replicas
        · rw [if_pos h5]
        rw [if_neg h5]
        by_cases h6 : new.spec > d.replicas
        · rw [if_neg (by omega)] at h3
          exact absurd (Option.some.inj h3).symm h5
        · rw [if_neg h6]
          rw [if_pos (by omega)] at h3
          rw [h3]
          dsimp only
          unfold scaleTo
          rw [if_pos rfl]
      unfold rolloutStep
      dsimp only
      rw [h4, h4]
      rfl

/-- C144, false part: three machines are wanted and run; the old set could go, but the call fails. The run returns no error, and says that nothing was to be done. -/
theorem C144_old_false : ¬ ∀ (d : Dep) (env : Env) (r : Rest) (old : List MS) (new : MS), ¬ Unhindered d env old new → rolloutError d env r old new = true := by
  intro h
  have := h { replicas := 3, maxSurge := some (.int 1), maxUnavailable := some (.int 0) } { okDown := fun _ => false } {} [{ name := "old", spec := 1, status := 1, avail := 1 }]
    { name := "new", spec := 3, status := 3, avail := 3 } (by unfold Unhindered; decide +kernel)
  revert this
  decide +kernel

/-- the same with the current set: the run returns an error -/
example : ¬ Unhindered { replicas := 3, maxSurge := some (.int 1), maxUnavailable := some (.int 0) } { okNew := false } [{ name := "old", spec := 3, status := 3, avail := 3 }] { name := "new", spec := 0 } ∧
    rolloutError { replicas := 3, maxSurge := some (.int 1), maxUnavailable := some (.int 0) } { okNew := false } {} [{ name := "old", spec := 3, status := 3, avail := 3 }] { name := "new", spec := 0 } = true := by
  have h : ¬ Unhindered { replicas := 3, maxSurge := some (.int 1), maxUnavailable := some (.int 0) } { okNew := false } [{ name := "old", spec := 3, status := 3, avail := 3 }] { name := "new", spec := 0 } := by
    unfold Unhindered
    decide +kernel
  exact ⟨h, C144_hindered_partial _ _ _ _ _ (fun _ => rfl) (fun _ => rfl) h⟩

/-- one machine of an old set goes, and is reported -/
example : reconcileOld { replicas := 3, maxSurge := some (.int 1), maxUnavailable := some (.int 0) } {} 4 [{ name := "old", spec := 1, status := 1, avail := 1 }]
    { name := "new", spec := 3, status := 3, avail := 3 } = ([{ name := "old", spec := 0, status := 1, avail := 1 }], true) := by decide +kernel

end MCM.Rolling
