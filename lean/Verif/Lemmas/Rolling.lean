import Verif.Model.Rolling
/-! Helper lemmas for the rolling-update model. -/
namespace MCM.Rolling
open MCM

/-- machines of a set that stay available when it is brought to its current size: the set's controller removes
unavailable machines first -/
def keptAvail (l : List MS) : Int := (l.map fun s => min s.avail s.spec).sum

@[simp] theorem specSum_nil : specSum [] = 0 := rfl
@[simp] theorem specSum_cons (s l) : specSum (s :: l) = s.spec + specSum l := by simp [specSum]
@[simp] theorem specSum_append (a b) : specSum (a ++ b) = specSum a + specSum b := by simp [specSum]
@[simp] theorem statusSum_nil : statusSum [] = 0 := rfl
@[simp] theorem statusSum_cons (s l) : statusSum (s :: l) = s.status + statusSum l := by simp [statusSum]
@[simp] theorem statusSum_append (a b) : statusSum (a ++ b) = statusSum a + statusSum b := by simp [statusSum]
@[simp] theorem availSum_nil : availSum [] = 0 := rfl
@[simp] theorem availSum_cons (s l) : availSum (s :: l) = s.avail + availSum l := by simp [availSum]
@[simp] theorem availSum_append (a b) : availSum (a ++ b) = availSum a + availSum b := by simp [availSum]
@[simp] theorem keptAvail_nil : keptAvail [] = 0 := rfl
@[simp] theorem keptAvail_cons (s l) : keptAvail (s :: l) = min s.avail s.spec + keptAvail l := by simp [keptAvail]
@[simp] theorem keptAvail_append (a b) : keptAvail (a ++ b) = keptAvail a + keptAvail b := by simp [keptAvail]

theorem sum_perm {l l' : List Int} (h : l.Perm l') : l.sum = l'.sum := by
  induction h with
  | nil => rfl
  | cons x _ ih => simp [ih]
  | swap x y l => simp; omega
  | trans _ _ ih1 ih2 => exact ih1.trans ih2

theorem specSum_perm {a b : List MS} (h : a.Perm b) : specSum a = specSum b := sum_perm (h.map _)
theorem availSum_perm {a b : List MS} (h : a.Perm b) : availSum a = availSum b := sum_perm (h.map _)
theorem keptAvail_perm {a b : List MS} (h : a.Perm b) : keptAvail a = keptAvail b := sum_perm (h.map _)

theorem specSum_nonneg (l : List MS) (h : ∀ s ∈ l, 0 ≤ s.spec) : 0 ≤ specSum l := by
  induction l with
  | nil => simp
  | cons s l ih => simp; have := h s (by simp); have := ih (fun x hx => h x (by simp [hx])); omega

theorem keptAvail_eq (l : List MS) (h : ∀ s ∈ l, s.avail ≤ s.spec) : keptAvail l = availSum l := by
  induction l with
  | nil => rfl
  | cons s l ih =>
    have h1 := h s (by simp); have h2 := ih (fun x hx => h x (by simp [hx]))
    simp [h2]; omega

theorem scaleTo_cases (ok : Bool) (s : MS) (n : Int) :
    (scaleTo ok s n = (s, false, false) ∧ s.spec = n) ∨ (scaleTo ok s n = ({ s with spec := n }, true, false) ∧ s.spec ≠ n ∧ ok = true)
    ∨ (scaleTo ok s n = (s, false, true) ∧ s.spec ≠ n ∧ ok = false) := by
  unfold scaleTo
  by_cases h : s.spec = n
  · simp [h]
  · cases ok <;> simp [h]

/-- one step of the clean-up loop -/
theorem cleanup_step (ok : MS → Bool) (maxC : Int) (s : MS) (rest : List MS) (t : Int) :
    (∃ t' e, cleanupLoop ok maxC (s :: rest) t = (s :: rest, t', e) ∧ (e = false → t' = t ∧ t ≥ maxC)
        ∧ (e = true → (s.avail > s.spec ∨ ok s = false)))
    ∨ (s.spec = 0 ∨ s.spec = s.avail) ∧ t < maxC ∧
      cleanupLoop ok maxC (s :: rest) t = (s :: (cleanupLoop ok maxC rest t).1, (cleanupLoop ok maxC rest t).2)
    ∨ ∃ c, 0 ≤ c ∧ c ≤ s.spec - s.avail ∧ c ≤ maxC - t ∧ t < maxC ∧ 
      cleanupLoop ok maxC (s :: rest) t
        = ({ s with spec := s.spec - c } :: (cleanupLoop ok maxC rest (t + c)).1, (cleanupLoop ok maxC rest (t + c)).2) := by
  rw [cleanupLoop]
  by_cases h1 : t ≥ maxC
  · left; exact ⟨t, false, by simp [h1], by simp [h1], by simp⟩
  · by_cases h2 : s.spec = 0 ∨ s.spec = s.avail
    · right; left; exact ⟨h2, by omega, by simp only [h1, h2, if_true, if_false]⟩
    · simp only [h1, h2, if_false]
      by_cases h3 : s.spec - min (maxC - t) (s.spec - s.avail) > s.spec
      · left; refine ⟨0, true, by simp only [h3, if_true], by simp, fun _ => Or.inl ?_⟩; omega
      · simp only [h3, if_false]
        rcases scaleTo_cases (ok s) s (s.spec - min (maxC - t) (s.spec - s.avail)) with ⟨h, he⟩ | ⟨h, he⟩ | ⟨h, he⟩
        · right; right
          refine ⟨min (maxC - t) (s.spec - s.avail), by omega, by omega, by omega, by omega, ?_⟩
          rw [h]; simp only [Bool.false_eq_true, if_false]
          rw [← he]
        · right; right
          refine ⟨min (maxC - t) (s.spec - s.avail), by omega, by omega, by omega, by omega, ?_⟩
          rw [h]; simp only [Bool.false_eq_true, if_false]
        · left
          exact ⟨t, true, by rw [h]; simp, by simp, fun _ => Or.inr he.2⟩

theorem cleanup_spec (ok : MS → Bool) (maxC : Int) (l : List MS) : ∀ t,
    specSum (cleanupLoop ok maxC l t).1 ≤ specSum l
    ∧ ((∀ s ∈ l, 0 ≤ s.avail ∧ 0 ≤ s.spec) → ∀ s ∈ (cleanupLoop ok maxC l t).1, 0 ≤ s.avail ∧ 0 ≤ s.spec)
    ∧ availSum (cleanupLoop ok maxC l t).1 = availSum l
    ∧ ((∀ s ∈ l, s.avail ≤ s.spec) → ∀ s ∈ (cleanupLoop ok maxC l t).1, s.avail ≤ s.spec) := by
  induction l with
  | nil => intro t; simp [cleanupLoop]
  | cons s rest ih =>
    intro t
    rcases cleanup_step ok maxC s rest t with ⟨t', e, h, _⟩ | ⟨_, _, h⟩ | ⟨c, hc0, hc1, _, _, h⟩
    · rw [h]; refine ⟨Int.le_refl _, fun h => h, rfl, fun h => h⟩
    · rw [h]
      obtain ⟨i1, i2, i3, i4⟩ := ih t
      refine ⟨by simp; omega, ?_, by simp [i3], ?_⟩
      · intro hh x hx; simp at hx
        rcases hx with rfl | hx
        · exact hh x (by simp)
        · exact i2 (fun y hy => hh y (by simp [hy])) x hx
      · intro hh x hx; simp at hx
        rcases hx with rfl | hx
        · exact hh x (by simp)
        · exact i4 (fun y hy => hh y (by simp [hy])) x hx
    · rw [h]
      obtain ⟨i1, i2, i3, i4⟩ := ih (t + c)
      refine ⟨by simp; omega, ?_, by simp [i3], ?_⟩
      · intro hh x hx; simp at hx
        rcases hx with rfl | hx
        · have := hh s (by simp); simp only; omega
        · exact i2 (fun y hy => hh y (by simp [hy])) x hx
      · intro hh x hx; simp at hx
        rcases hx with rfl | hx
        · have := hh s (by simp); simp only; omega
        · exact i4 (fun y hy => hh y (by simp [hy])) x hx

/-- nothing to clean up -/
theorem cleanup_settled (ok : MS → Bool) (maxC : Int) (l : List MS) (h : ∀ s ∈ l, s.spec = s.avail) : ∀ t,
    cleanupLoop ok maxC l t = (l, t, false) := by
  induction l with
  | nil => intro t; rfl
  | cons s rest ih =>
    intro t
    have h1 := h s (by simp)
    rw [cleanupLoop, ih (fun x hx => h x (by simp [hx]))]
    simp [h1]

theorem scaleDown_step (ok : MS → Bool) (total : Int) (s : MS) (rest : List MS) (t : Int) (hs : 0 ≤ s.spec) :
    (∃ t' e, scaleDownLoop ok total (s :: rest) t = (s :: rest, t', e) ∧ (e = false → t ≥ total) ∧ (e = true → ok s = false))
    ∨ s.spec = 0 ∧ t < total ∧
      scaleDownLoop ok total (s :: rest) t = (s :: (scaleDownLoop ok total rest t).1, (scaleDownLoop ok total rest t).2)
    ∨ ∃ c, 0 < c ∧ c ≤ s.spec ∧ c ≤ total - t ∧
      scaleDownLoop ok total (s :: rest) t
        = ({ s with spec := s.spec - c } :: (scaleDownLoop ok total rest (t + c)).1, (scaleDownLoop ok total rest (t + c)).2) := by
  rw [scaleDownLoop]
  by_cases h1 : t ≥ total
  · left; exact ⟨t, false, by simp [h1], by simp [h1], by simp⟩
  · by_cases h2 : s.spec = 0
    · right; left; exact ⟨h2, by omega, by simp only [h1, h2, if_true, if_false]⟩
    · simp only [h1, h2, if_false]
      have h3 : ¬ s.spec - min s.spec (total - t) > s.spec := by omega
      simp only [h3, if_false]
      rcases scaleTo_cases (ok s) s (s.spec - min s.spec (total - t)) with ⟨h, he⟩ | ⟨h, he⟩ | ⟨h, he⟩
      · omega
      · right; right
        refine ⟨min s.spec (total - t), by omega, by omega, by omega, ?_⟩
        rw [h]; simp only [Bool.false_eq_true, if_false]
      · left
        exact ⟨t, true, by rw [h]; simp, by simp, fun _ => he.2⟩

theorem scaleDown_spec (ok : MS → Bool) (total : Int) (l : List MS) : ∀ t, (∀ s ∈ l, 0 ≤ s.spec) →
    specSum (scaleDownLoop ok total l t).1 ≤ specSum l
    ∧ (∀ s ∈ (scaleDownLoop ok total l t).1, 0 ≤ s.spec)
    ∧ ((∀ s ∈ l, 0 ≤ s.avail) → ∀ s ∈ (scaleDownLoop ok total l t).1, 0 ≤ s.avail)
    ∧ keptAvail l - max 0 (total - t) ≤ keptAvail (scaleDownLoop ok total l t).1 := by
  induction l with
  | nil => intro t _; simp [scaleDownLoop]; omega
  | cons s rest ih =>
    intro t hnn
    have hs := hnn s (by simp)
    have hr : ∀ s ∈ rest, 0 ≤ s.spec := fun x hx => hnn x (by simp [hx])
    rcases scaleDown_step ok total s rest t hs with ⟨t', e, h, _⟩ | ⟨_, _, h⟩ | ⟨c, hc0, hc1, hc2, h⟩
    · rw [h]; exact ⟨Int.le_refl _, hnn, fun h => h, by dsimp only; omega⟩
    · rw [h]
      obtain ⟨i1, i2, i3, i4⟩ := ih t hr
      refine ⟨by simp; omega, ?_, ?_, by simp; omega⟩
      · intro x hx; simp at hx
        rcases hx with rfl | hx
        · exact hs
        · exact i2 x hx
      · intro hh x hx; simp at hx
        rcases hx with rfl | hx
        · exact hh x (by simp)
        · exact i3 (fun y hy => hh y (by simp [hy])) x hx
    · rw [h]
      obtain ⟨i1, i2, i3, i4⟩ := ih (t + c) hr
      refine ⟨by simp; omega, ?_, ?_, ?_⟩
      · intro x hx; simp at hx
        rcases hx with rfl | hx
        · simp only; omega
        · exact i2 x hx
      · intro hh x hx; simp at hx
        rcases hx with rfl | hx
        · exact hh s (by simp)
        · exact i3 (fun y hy => hh y (by simp [hy])) x hx
      · simp only [keptAvail_cons]; omega

/-- the scale-down loop makes progress when the updates succeed -/
theorem scaleDown_progress (ok : MS → Bool) (total : Int) (l : List MS) : ∀ t, (∀ s ∈ l, 0 ≤ s.spec) → (∀ s, ok s = true) →
    t < total → 0 < specSum l → specSum (scaleDownLoop ok total l t).1 < specSum l ∧ (scaleDownLoop ok total l t).2.2 = false := by
  induction l with
  | nil => intro t _ _ _ h; simp at h
  | cons s rest ih =>
    intro t hnn hok ht hpos
    have hs := hnn s (by simp)
    have hr : ∀ s ∈ rest, 0 ≤ s.spec := fun x hx => hnn x (by simp [hx])
    have noerr : ∀ (l : List MS) t, (∀ s ∈ l, 0 ≤ s.spec) → (scaleDownLoop ok total l t).2.2 = false := by
      intro l
      induction l with
      | nil => intro t _; rfl
      | cons s rest ih =>
        intro t hnn
        have hs := hnn s (by simp)
        have hr : ∀ s ∈ rest, 0 ≤ s.spec := fun x hx => hnn x (by simp [hx])
        rcases scaleDown_step ok total s rest t hs with ⟨t', e, h, h1, h2⟩ | ⟨_, _, h⟩ | ⟨c, hc0, hc1, hc2, h⟩
        · rw [h]; cases e
          · rfl
          · have := h2 rfl; rw [hok] at this; simp at this
        · rw [h]; exact ih t hr
        · rw [h]; exact ih _ hr
    refine ⟨?_, noerr _ _ hnn⟩
    rcases scaleDown_step ok total s rest t hs with ⟨t', e, h, h1, h2⟩ | ⟨h0, _, h⟩ | ⟨c, hc0, hc1, hc2, h⟩
    · cases e
      · have := h1 rfl; omega
      · have := h2 rfl; rw [hok] at this; simp at this
    · rw [h]; simp [h0] at hpos ⊢
      exact (ih t hr hok ht hpos).1
    · rw [h]; simp
      have := (scaleDown_spec ok total rest (t + c) hr).1
      omega

/-- the orders chosen by the sorting calls are permutations -/
def Env.Sorts (env : Env) : Prop := (∀ l, (env.srt1 l).Perm l) ∧ ∀ l, (env.srt2 l).Perm l

theorem mem_perm_forall {p : MS → Prop} {a b : List MS} (h : a.Perm b) (hp : ∀ s ∈ b, p s) : ∀ s ∈ a, p s :=
  fun s hs => hp s (h.mem_iff.1 hs)

theorem scaleDownOld_spec (d : Dep) (ok srt) (hsrt : ∀ l : List MS, (srt l).Perm l) (all old : List MS)
    (hnn : ∀ s ∈ old, 0 ≤ s.spec) :
    specSum (scaleDownOld d ok srt all old).1 ≤ specSum old
    ∧ (∀ s ∈ (scaleDownOld d ok srt all old).1, 0 ≤ s.spec)
    ∧ ((∀ s ∈ old, 0 ≤ s.avail) → ∀ s ∈ (scaleDownOld d ok srt all old).1, 0 ≤ s.avail)
    ∧ keptAvail old - max 0 (availSum all - (d.replicas - maxUnavailable d)) ≤ keptAvail (scaleDownOld d ok srt all old).1 := by
  unfold scaleDownOld
  dsimp only
  split
  · exact ⟨Int.le_refl _, hnn, fun h => h, by dsimp only; omega⟩
  · have := scaleDown_spec ok (availSum all - (d.replicas - maxUnavailable d)) (srt old) 0 (mem_perm_forall (hsrt old) hnn)
    rw [specSum_perm (hsrt old), keptAvail_perm (hsrt old)] at this
    refine ⟨this.1, this.2.1, fun h => this.2.2.1 (mem_perm_forall (hsrt old) h), ?_⟩
    have := this.2.2.2
    omega

theorem reconcileOld_spec (d : Dep) (env : Env) (hs : env.Sorts) (allSpec : Int) (old : List MS) (new : MS)
    (hnn : ∀ s ∈ old, 0 ≤ s.avail ∧ 0 ≤ s.spec) :
    specSum (reconcileOld d env allSpec old new).1 ≤ specSum old
    ∧ (∀ s ∈ (reconcileOld d env allSpec old new).1, 0 ≤ s.avail ∧ 0 ≤ s.spec)
    ∧ ((∀ s ∈ old, s.avail ≤ s.spec) → 
        availSum old - max 0 (availSum old + new.avail - (d.replicas - maxUnavailable d)) ≤ keptAvail (reconcileOld d env allSpec old new).1) := by
  unfold reconcileOld
  dsimp only
  split
  · refine ⟨Int.le_refl _, hnn, fun h => ?_⟩
    rw [keptAvail_eq old h]; omega
  split
  · refine ⟨Int.le_refl _, hnn, fun h => ?_⟩
    rw [keptAvail_eq old h]; omega
  have hc := cleanup_spec env.okClean (allSpec - (d.replicas - maxUnavailable d) - (new.spec - new.avail)) (env.srt1 old) 0
  generalize cleanupLoop env.okClean (allSpec - (d.replicas - maxUnavailable d) - (new.spec - new.avail)) (env.srt1 old) 0 = r at *
  obtain ⟨c1, c2, c3, c4⟩ := hc
  rw [specSum_perm (hs.1 old)] at c1
  rw [availSum_perm (hs.1 old)] at c3
  have c2' := c2 (mem_perm_forall (hs.1 old) hnn)
  have c4' : (∀ s ∈ old, s.avail ≤ s.spec) → keptAvail r.1 = availSum old := by
    intro h; rw [keptAvail_eq _ (c4 (mem_perm_forall (hs.1 old) h)), c3]
  split
  · refine ⟨c1, c2', fun h => ?_⟩
    rw [c4' h]; omega
  · have h2 := scaleDownOld_spec d env.okDown env.srt2 hs.2 (r.1 ++ [new]) r.1 (fun s h => (c2' s h).2)
    generalize scaleDownOld d env.okDown env.srt2 (r.1 ++ [new]) r.1 = q at *
    obtain ⟨d1, d2, d3, d4⟩ := h2
    have d3' := d3 (fun s h => (c2' s h).1)
    have key : specSum q.1 ≤ specSum old ∧ (∀ s ∈ q.1, 0 ≤ s.avail ∧ 0 ≤ s.spec) ∧ ((∀ s ∈ old, s.avail ≤ s.spec) → 
        availSum old - max 0 (availSum old + new.avail - (d.replicas - maxUnavailable d)) ≤ keptAvail q.1) := by
      refine ⟨by omega, fun s h => ⟨d3' s h, d2 s h⟩, fun h => ?_⟩
      rw [c4' h] at d4
      simp at d4
      rw [c3] at d4
      omega
    split <;> exact key

theorem filter_split_sum (l : List MS) (p : MS → Bool) :
    specSum (l.filter (fun s => !p s)) + specSum (l.filter p) = specSum l
    ∧ availSum (l.filter (fun s => !p s)) + availSum (l.filter p) = availSum l := by
  induction l with
  | nil => simp
  | cons s l ih =>
    cases h : p s <;> simp [h] <;> omega

/-- summary of one rollout step, for any observation -/
theorem step_cases (d : Dep) (env : Env) (old : List MS) (new : MS) :
    (rolloutStep d env old new = (old, new))
    ∨ (∃ n, n ≠ new.spec ∧ rolloutStep d env old new = (old, { new with spec := n }) ∧
        ((new.spec > d.replicas ∧ n = d.replicas) ∨
         (new.spec < d.replicas ∧ newReplicas d (old ++ [new]) new = some n)))
    ∨ (∃ old', rolloutStep d env old new = (old', new)
        ∧ old' = old.filter (fun s => !(decide (s.spec > 0))) ++ (reconcileOld d env (specSum (old ++ [new])) (old.filter (fun s => s.spec > 0)) new).1
        ∧ env.preOk = true
        ∧ (reconcileNew d env.okNew (old ++ [new]) new).2 = (false, false)) := by
  unfold rolloutStep
  cases hp : env.preOk
  · left; simp
  · simp only [Bool.not_true, Bool.false_eq_true, if_false]
    have hrn : (reconcileNew d env.okNew (old ++ [new]) new = (new, false, false)) ∨
        (reconcileNew d env.okNew (old ++ [new]) new = (new, false, true)) ∨
        (∃ n, n ≠ new.spec ∧ reconcileNew d env.okNew (old ++ [new]) new = ({ new with spec := n }, true, false) ∧
          ((new.spec > d.replicas ∧ n = d.replicas) ∨
          (new.spec < d.replicas ∧ newReplicas d (old ++ [new]) new = some n))) := by
      unfold reconcileNew
      split
      · exact Or.inl rfl
      split
      · rename_i h1 h2
        rcases scaleTo_cases env.okNew new d.replicas with ⟨h, _⟩ | ⟨h, he⟩ | ⟨h, _⟩
        · rw [h]; exact Or.inl rfl
        · right; right; exact ⟨d.replicas, fun e => he.1 e.symm, h, Or.inl ⟨h2, rfl⟩⟩
        · rw [h]; exact Or.inr (Or.inl rfl)
      · rename_i h1 h2
        split
        · exact Or.inr (Or.inl rfl)
        · rename_i n hn
          rcases scaleTo_cases env.okNew new n with ⟨h, _⟩ | ⟨h, he⟩ | ⟨h, _⟩
          · rw [h]; exact Or.inl rfl
          · right; right; exact ⟨n, fun e => he.1 e.symm, h, Or.inr ⟨by omega, hn⟩⟩
          · rw [h]; exact Or.inr (Or.inl rfl)
    rcases hrn with h | h | ⟨n, hn, h, hc⟩
    · rw [h]; right; right; exact ⟨_, rfl, rfl, trivial, rfl⟩
    · rw [h]; left; rfl
    · rw [h]; right; left; exact ⟨n, hn, rfl, hc⟩

end MCM.Rolling
