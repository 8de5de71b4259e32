import Verif.Lemmas.Rolling
import Verif.Lemmas.Atoi
/-!
# C09–C12 – rolling updates

C09 budgets, C10 surge limit, C11 availability floor, C12 progress to completion.
-/
namespace MCM.Rolling
open MCM

/-! ## C09: independent specification -/

/-- `k` is `pct` percent of `total`, rounded up -/
def IsCeilPercent (pct total k : Int) : Prop := pct * total ≤ 100 * k ∧ 100 * k < pct * total + 100
/-- `k` is `pct` percent of `total`, rounded down -/
def IsFloorPercent (pct total k : Int) : Prop := 100 * k ≤ pct * total ∧ pct * total < 100 * k + 100

/-- a budget as users write it: a number or a percentage -/
inductive Budget
  | abs (n : Nat)
  | percent (p : Nat)

/-- how it is written in the manifest -/
def Budget.manifest : Budget → IntOrStr
  | .abs n => .int n
  | .percent p => .str (p.repr ++ "%")

/-- `k` machines is what the budget allows out of `total`, fractions rounded up -/
def Budget.UpTo (total : Int) (k : Int) : Budget → Prop
  | .abs n => k = n
  | .percent p => IsCeilPercent p total k
/-- same, fractions rounded down -/
def Budget.DownTo (total : Int) (k : Int) : Budget → Prop
  | .abs n => k = n
  | .percent p => IsFloorPercent p total k

/-- percentages that fit the 64-bit parser -/
def Budget.Parses : Budget → Prop
  | .abs _ => True
  | .percent p => p < 2^63

theorem ceilPct_spec (v t : Int) : IsCeilPercent v t (ceilPct v t) := by
  unfold IsCeilPercent ceilPct; omega
theorem floorPct_spec (v t : Int) : IsFloorPercent v t (floorPct v t) := by
  unfold IsFloorPercent floorPct; omega

theorem percent_strip (p : Nat) : String.ofList ((p.repr ++ "%").toList.filter (· != '%')) = p.repr := by
  rw [String.toList_append, List.filter_append, Nat.toList_repr]
  have h1 : (Nat.toDigits 10 p).filter (· != '%') = Nat.toDigits 10 p := by
    rw [List.filter_eq_self]
    intro c hc
    have := Nat.isDigit_of_mem_toDigits (b := 10) (by omega) (by omega) hc
    simp only [bne_iff_ne, ne_eq]; rintro rfl; simp at this
  rw [h1, show ("%".toList.filter (· != '%')) = [] by decide, List.append_nil, Nat.repr_eq_ofList_toDigits]

theorem scaledValue_up (b : Budget) (hb : b.Parses) (t : Int) : ∃ k, scaledValue (some b.manifest) t true = some k ∧ b.UpTo t k := by
  cases b with
  | abs n => exact ⟨n, rfl, rfl⟩
  | percent p =>
    refine ⟨ceilPct p t, ?_, ceilPct_spec _ _⟩
    simp only [Budget.manifest, scaledValue, percent_strip, atoi_repr p hb]; rfl

theorem scaledValue_down (b : Budget) (hb : b.Parses) (t : Int) : ∃ k, scaledValue (some b.manifest) t false = some k ∧ b.DownTo t k := by
  cases b with
  | abs n => exact ⟨n, rfl, rfl⟩
  | percent p =>
    refine ⟨floorPct p t, ?_, floorPct_spec _ _⟩
    simp only [Budget.manifest, scaledValue, percent_strip, atoi_repr p hb]; rfl

/-- **C09** (rounding, never both zero). For every pair of budgets written as numbers or percentages the resolution
succeeds; surge is rounded up, unavailability rounded down, except that it becomes 1 when both would be 0. -/
theorem C09_fenceposts (bs bu : Budget) (hs : bs.Parses) (hu : bu.Parses) (replicas : Int) (hr : 0 ≤ replicas) :
    ∃ s u u0, resolveFenceposts (some bs.manifest) (some bu.manifest) replicas = some (s, u)
      ∧ bs.UpTo replicas s ∧ bu.DownTo replicas u0 ∧ 0 ≤ s ∧ 0 ≤ u0
      ∧ (s ≠ 0 ∨ u ≠ 0) ∧ (s = 0 → u0 = 0 → u = 1) ∧ (s ≠ 0 ∨ u0 ≠ 0 → u = u0) := by
  obtain ⟨s, h1, h2⟩ := scaledValue_up bs hs replicas
  obtain ⟨u0, h3, h4⟩ := scaledValue_down bu hu replicas
  have hs0 : 0 ≤ s := by
    cases bs with
    | abs n => simp [Budget.UpTo] at h2; omega
    | percent p =>
      have : 0 ≤ (p : Int) * replicas := Int.mul_nonneg (by omega) hr
      simp [Budget.UpTo, IsCeilPercent] at h2; omega
  have hu0 : 0 ≤ u0 := by
    cases bu with
    | abs n => simp [Budget.DownTo] at h4; omega
    | percent p =>
      have : 0 ≤ (p : Int) * replicas := Int.mul_nonneg (by omega) hr
      simp [Budget.DownTo, IsFloorPercent] at h4; omega
  by_cases h : s = 0 ∧ u0 = 0
  · refine ⟨s, 1, u0, ?_, h2, h4, hs0, hu0, by omega, by omega, by omega⟩
    simp [resolveFenceposts, h1, h3, h.1, h.2]
  · refine ⟨s, u0, u0, ?_, h2, h4, hs0, hu0, by omega, by omega, by omega⟩
    simp [resolveFenceposts, h1, h3, h]

/-- both zero is refused for raw values of any kind (numbers of any sign, any string) -/
theorem C09_never_both_zero (bs bu : Option IntOrStr) (replicas s u : Int)
    (h : resolveFenceposts bs bu replicas = some (s, u)) : s ≠ 0 ∨ u ≠ 0 := by
  unfold resolveFenceposts at h
  split at h
  · simp at h
  · split at h
    · simp at h
    · split at h <;> simp at h <;> omega

/-- **C09** (availability floor). The effective maxUnavailable is what was asked for, capped by the replica count, and
the enforced minimum of available machines is `replicas - maxUnavailable`, which is never negative. -/
theorem C09_floor (d : Dep) (bs bu : Budget) (hs : bs.Parses) (hu : bu.Parses) (hd : d.strategy = .rolling)
    (h1 : d.maxSurge = some bs.manifest) (h2 : d.maxUnavailable = some bu.manifest) (hr : 0 ≤ d.replicas) :
    0 ≤ maxUnavailable d ∧ maxUnavailable d ≤ d.replicas ∧ minAvailable d = d.replicas - maxUnavailable d ∧ 0 ≤ minAvailable d
    ∧ (∀ s u, resolveFenceposts (some bs.manifest) (some bu.manifest) d.replicas = some (s, u) →
        maxSurge d = s ∧ maxUnavailable d = min u d.replicas) := by
  obtain ⟨s, u, u0, h, _, _, h5, h6, h7, h8, h9⟩ := C09_fenceposts bs bu hs hu d.replicas hr
  have hu' : 0 ≤ u := by
    by_cases hz : s = 0 ∧ u0 = 0
    · have := h8 hz.1 hz.2; omega
    · have := h9 (by omega); omega
  have e : maxUnavailable d = min u d.replicas := by
    unfold maxUnavailable
    simp only [hd, h1, h2, h, Option.getD_some]
    by_cases h0 : d.replicas = 0
    · simp [h0]; omega
    · simp [h0]; split <;> omega
  refine ⟨by omega, by omega, by simp [minAvailable, hd], by simp [minAvailable, hd]; omega, ?_⟩
  intro s' u' h'
  rw [h] at h'
  simp only [Option.some.injEq, Prod.mk.injEq] at h'
  obtain ⟨rfl, rfl⟩ := h'
  exact ⟨by simp [maxSurge, hd, h1, h2, h], e⟩

/-- a negative budget (accepted by validation) breaks the floor's upper bound: the floor exceeds the replica count -/
theorem C09_negative_budget_raises_floor : minAvailable { replicas := 3, maxSurge := some (.int 1), maxUnavailable := some (.int (-1)) } = 4 := by
  decide

/-- **C09**: with budgets that cannot be read there is no surge, and all replicas are needed. -/
theorem C09_unreadable (d : Dep) (hd : d.strategy = .rolling) (h : resolveFenceposts d.maxSurge d.maxUnavailable d.replicas = none) (hr : 0 ≤ d.replicas) :
    maxSurge d = 0 ∧ maxUnavailable d = 0 ∧ minAvailable d = d.replicas := by
  have h1 : maxSurge d = 0 := by unfold maxSurge; rw [if_neg (by simp [hd]), h]; rfl
  have h2 : maxUnavailable d = 0 := by
    unfold maxUnavailable
    rw [h]
    dsimp only [Option.getD_none]
    split
    · rfl
    · rw [if_neg (by omega)]
  refine ⟨h1, h2, ?_⟩
  unfold minAvailable
  rw [if_neg (by simp [hd]), h2]
  omega

example : resolveFenceposts (some (.str "x%")) (some (.int 1)) 10 = none := by decide +kernel

-- 25% of 10 rounds to 3 up and 2 down
example : resolveFenceposts (some (.str "25%")) (some (.str "25%")) 10 = some (3, 2) := by decide +kernel
example : (Budget.percent 25).manifest = .str "25%" := by decide +kernel
example : resolveFenceposts (some (.str "0%")) (some (.int 0)) 10 = some (0, 1) := by decide +kernel

/-! ## Rollout state and executions -/

/-- desired sizes: the old sets in any order and the new one -/
structure Sizes where
  old : List Int
  new : Int

def Sizes.total (s : Sizes) : Int := s.old.sum + s.new

def sizesOf (old : List MS) (new : MS) : Sizes := ⟨old.map (·.spec), new.spec⟩

/-- One controller run: it sees some machine sets whose desired sizes are the stored ones (status numbers are whatever
the cache shows, constrained by `view`), with arbitrary API outcomes and sort orders (constrained by `envOk`). -/
def StepRel (d : Dep) (view : MS → Prop) (envOk : Env → Prop) (a b : Sizes) : Prop :=
  ∃ (env : Env) (old : List MS) (new : MS), env.Sorts ∧ envOk env ∧ (∀ s ∈ new :: old, view s)
    ∧ (old.map (·.spec)).Perm a.old ∧ new.spec = a.new
    ∧ sizesOf (rolloutStep d env old new).1 (rolloutStep d env old new).2 = b

/-- any number of steps -/
inductive Steps (R : Sizes → Sizes → Prop) : Sizes → Sizes → Prop
  | refl (a) : Steps R a a
  | tail {a b c} : Steps R a b → R b c → Steps R a c

theorem filter_forall {p : MS → Prop} (l : List MS) (f : MS → Bool) (h : ∀ s ∈ l, p s) : ∀ s ∈ l.filter f, p s :=
  fun s hs => h s (List.mem_filter.1 hs).1

/-! ## C10 -/

theorem newReplicas_bound (d : Dep) (surge : Int) (hd : d.strategy = .rolling) (hsu : scaledValue d.maxSurge d.replicas true = some surge)
    (all : List MS) (new : MS) (n : Int) (hlt : new.spec ≤ d.replicas) (h : newReplicas d all new = some n) :
    new.spec ≤ n ∧ n ≤ d.replicas ∧ (n > new.spec → n - new.spec ≤ d.replicas + surge - statusSum all) := by
  unfold newReplicas at h
  simp only [hd, hsu] at h
  split at h
  · simp at h; omega
  · simp at h; omega

theorem newReplicas_mono (d : Dep) (hd : d.strategy = .rolling) (all : List MS) (new : MS) (n : Int) (hlt : new.spec ≤ d.replicas)
    (h : newReplicas d all new = some n) : new.spec ≤ n ∧ n ≤ d.replicas := by
  cases hsu : scaledValue d.maxSurge d.replicas true with
  | none => simp [newReplicas, hd, hsu] at h
  | some surge => have := newReplicas_bound d surge hd hsu all new n hlt h; omega

theorem statusSum_ge (l : List MS) (h : ∀ s ∈ l, s.spec ≤ s.status) : specSum l ≤ statusSum l := by
  induction l with
  | nil => simp
  | cons s l ih =>
    have := h s (by simp); have := ih (fun x hx => h x (by simp [hx]))
    simp; omega

/-- **C10** (partial): one rollout step, provided every machine set's reported replicas are not behind its desired
replicas. A scale-up of the new set keeps the total within `replicas + surge` and the new set within `replicas`; otherwise
no size grows in total. -/
theorem C10_step_within_surge_partial (d : Dep) (surge : Int) (hd : d.strategy = .rolling)
    (hsu : scaledValue d.maxSurge d.replicas true = some surge) (env : Env) (hs : env.Sorts) (old : List MS) (new : MS)
    (hnn : ∀ s ∈ old, 0 ≤ s.avail ∧ 0 ≤ s.spec) (hfresh : ∀ s ∈ new :: old, s.spec ≤ s.status) :
    let r := rolloutStep d env old new
    (r.2.spec > new.spec → specSum r.1 + r.2.spec ≤ d.replicas + surge ∧ r.2.spec ≤ d.replicas ∧ specSum r.1 = specSum old)
    ∧ specSum r.1 ≤ specSum old ∧ r.2.spec ≤ max new.spec d.replicas := by
  intro r
  rcases step_cases d env old new with h | ⟨n, hne, h, hc⟩ | ⟨old', h, ho, _, _⟩
  · simp only [r, h]; exact ⟨by omega, by omega, by omega⟩
  · simp only [r, h]
    rcases hc with ⟨h1, rfl⟩ | ⟨h1, h2⟩
    · exact ⟨by omega, by omega, by omega⟩
    · obtain ⟨b1, b2, b3⟩ := newReplicas_bound d surge hd hsu _ new n (by omega) h2
      have hss := statusSum_ge old (fun s h => hfresh s (by simp [h]))
      have hn := hfresh new (by simp)
      simp at b3
      refine ⟨fun hgt => ⟨?_, b2, trivial⟩, by omega, by omega⟩
      have := b3 hgt
      omega
  · simp only [r, h]
    have h2 := (reconcileOld_spec d env hs (specSum (old ++ [new])) (old.filter (fun s => s.spec > 0)) new (filter_forall _ _ hnn)).1
    have h3 := (filter_split_sum old (fun s => decide (s.spec > 0))).1
    refine ⟨by omega, ?_, by omega⟩
    rw [ho, specSum_append (old.filter _)]; omega

theorem sizes_total (old : List MS) (new : MS) : (sizesOf old new).total = specSum old + new.spec := rfl

/-- **C10** (partial): over any sequence of rollout steps the total number of desired machines never exceeds the initial
total or `replicas + surge`, and the new set never exceeds `replicas` unless it started above. -/
theorem C10_history_within_surge_partial (d : Dep) (surge : Int) (hd : d.strategy = .rolling)
    (hsu : scaledValue d.maxSurge d.replicas true = some surge) (a b : Sizes)
    (h : Steps (StepRel d (fun s => 0 ≤ s.avail ∧ 0 ≤ s.spec ∧ s.spec ≤ s.status) (fun _ => True)) a b) :
    b.total ≤ max a.total (d.replicas + surge) ∧ b.new ≤ max a.new d.replicas := by
  induction h with
  | refl => omega
  | tail _ hstep ih =>
    obtain ⟨env, old, new, hs, _, hv, hperm, hnew, rfl⟩ := hstep
    have h1 := C10_step_within_surge_partial d surge hd hsu env hs old new (fun s h => by have := hv s (by simp [h]); omega)
      (fun s h => (hv s h).2.2)
    dsimp only at h1
    have hsum := sum_perm hperm
    change specSum old = _ at hsum
    simp only [Sizes.total] at ih
    rw [sizes_total]
    simp only [sizesOf, Sizes.total]
    by_cases hg : (rolloutStep d env old new).2.spec > new.spec
    · have := h1.1 hg; omega
    · omega

/-- by how much the reported numbers of machines are behind the desired ones, over all sets -/
def behind (l : List MS) : Int := (l.map fun s => s.spec - s.status).sum

theorem behind_eq (l : List MS) : behind l = specSum l - statusSum l := by
  induction l with
  | nil => rfl
  | cons s l ih =>
    have e : behind (s :: l) = s.spec - s.status + behind l := by simp [behind]
    rw [e, ih]; simp; omega

/-- **C10** (what holds in any case): whatever the sets report, a scale-up of the new set exceeds the limit by at most as much as the reports are behind, and keeps the new set
within `replicas`. -/
theorem C10_step_bound (d : Dep) (surge : Int) (hd : d.strategy = .rolling)
    (hsu : scaledValue d.maxSurge d.replicas true = some surge) (env : Env) (hs : env.Sorts) (old : List MS) (new : MS)
    (hnn : ∀ s ∈ old, 0 ≤ s.avail ∧ 0 ≤ s.spec) :
    let r := rolloutStep d env old new
    (r.2.spec > new.spec → specSum r.1 + r.2.spec ≤ d.replicas + surge + behind (old ++ [new]) ∧ r.2.spec ≤ d.replicas ∧ specSum r.1 = specSum old)
    ∧ specSum r.1 ≤ specSum old ∧ r.2.spec ≤ max new.spec d.replicas := by
  intro r
  rcases step_cases d env old new with h | ⟨n, hne, h, hc⟩ | ⟨old', h, ho, _, _⟩
  · simp only [r, h]; exact ⟨by omega, by omega, by omega⟩
  · simp only [r, h]
    rcases hc with ⟨h1, rfl⟩ | ⟨h1, h2⟩
    · exact ⟨by omega, by omega, by omega⟩
    · obtain ⟨b1, b2, b3⟩ := newReplicas_bound d surge hd hsu _ new n (by omega) h2
      have hb := behind_eq (old ++ [new])
      simp at b3 hb
      refine ⟨fun hgt => ⟨?_, b2, trivial⟩, by omega, by omega⟩
      have := b3 hgt
      omega
  · simp only [r, h]
    have h2 := (reconcileOld_spec d env hs (specSum (old ++ [new])) (old.filter (fun s => s.spec > 0)) new (filter_forall _ _ hnn)).1
    have h3 := (filter_split_sum old (fun s => decide (s.spec > 0))).1
    refine ⟨by omega, ?_, by omega⟩
    rw [ho, specSum_append (old.filter _)]; omega

/-- one rollout step that sees reports behind by at most `b` machines in all -/
def StepBehind (d : Dep) (b : Int) (x y : Sizes) : Prop :=
  ∃ (env : Env) (old : List MS) (new : MS), env.Sorts ∧ (∀ s ∈ old, 0 ≤ s.avail ∧ 0 ≤ s.spec) ∧ behind (old ++ [new]) ≤ b
    ∧ (old.map (·.spec)).Perm x.old ∧ new.spec = x.new ∧ sizesOf (rolloutStep d env old new).1 (rolloutStep d env old new).2 = y

/-- **C10** (what holds in any case), over any sequence of rollout steps: with reports that are never behind by more than `b` machines the limit is exceeded by at most `b`. -/
theorem C10_history_bound (d : Dep) (surge : Int) (hd : d.strategy = .rolling)
    (hsu : scaledValue d.maxSurge d.replicas true = some surge) (b : Int) (x y : Sizes) (h : Steps (StepBehind d b) x y) :
    y.total ≤ max x.total (d.replicas + surge + b) ∧ y.new ≤ max x.new d.replicas := by
  induction h with
  | refl => omega
  | tail _ hstep ih =>
    obtain ⟨env, old, new, hs, hv, hb, hperm, hnew, rfl⟩ := hstep
    have h1 := C10_step_bound d surge hd hsu env hs old new hv
    dsimp only at h1
    have hsum := sum_perm hperm
    change specSum old = _ at hsum
    simp only [Sizes.total] at ih
    rw [sizes_total]
    simp only [sizesOf, Sizes.total]
    by_cases hg : (rolloutStep d env old new).2.spec > new.spec
    · have := h1.1 hg; omega
    · omega

-- the bound is reached (C10_lagging_status_overshoots_false below): one machine behind, one above the limit of four
example : let d : Dep := { replicas := 3, maxSurge := some (.int 1), maxUnavailable := some (.int 0) }
    let old : List MS := [{ spec := 3, status := 3, avail := 3 }]
    let new : MS := { spec := 1, status := 0 }
    behind (old ++ [new]) = 1 ∧ specSum (rolloutStep d {} old new).1 + (rolloutStep d {} old new).2.spec = 3 + 1 + 1 := by decide

/-- **C10** (partial): the new machine set is created within the limit. -/
theorem C10_creation_within_surge_partial (d : Dep) (surge : Int) (hd : d.strategy = .rolling)
    (hsu : scaledValue d.maxSurge d.replicas true = some surge) (hr : 0 ≤ d.replicas) (old : List MS) (hfresh : ∀ s ∈ old, s.spec ≤ s.status)
    (new : MS) (h : initialNew d old = some new) :
    0 ≤ new.spec ∧ new.spec ≤ d.replicas ∧ (0 < new.spec → specSum old + new.spec ≤ d.replicas + surge) := by
  simp only [initialNew, Option.map_eq_some_iff] at h
  obtain ⟨n, h, rfl⟩ := h
  obtain ⟨b1, b2, b3⟩ := newReplicas_bound d surge hd hsu _ { spec := 0 } n (by simpa using hr) h
  have hss := statusSum_ge old hfresh
  simp at b1 b3
  refine ⟨b1, b2, fun hp => ?_⟩
  have := b3 hp
  simp only; omega

/-- The unrestricted statement is false: the scale-up counts *reported* machines, so with a status that lags behind the
desired size a second step overshoots: 3 replicas, surge 1, but 5 desired machines. -/
theorem C10_lagging_status_overshoots_false :
    let d : Dep := { replicas := 3, maxSurge := some (.int 1), maxUnavailable := some (.int 0) }
    let r := rolloutStep d {} [{ spec := 3, status := 3, avail := 3 }] { spec := 1, status := 0 }
    specSum r.1 + r.2.spec = 5 := by decide

-- the hypotheses are met by a real rollout: 3 old, 1 new, one more scale-up after an old machine has gone
example : let d : Dep := { replicas := 3, maxSurge := some (.int 1), maxUnavailable := some (.int 0) }
    rolloutStep d {} [{ spec := 2, status := 2, avail := 2 }] { spec := 1, status := 1, avail := 1 }
      = ([{ spec := 2, status := 2, avail := 2 }], { spec := 2, status := 1, avail := 1 }) := by decide
example : scaledValue (some (.int 1)) 3 true = some 1 := rfl

/-! ## C11 -/

/-- Machines certain to stay available after the machine sets have been given the sizes of `l`: of a set with `avail`
available machines and desired size `spec`, `min avail spec` (its controller removes unavailable machines first, C03). -/
def guaranteed (l : List MS) : Int := (l.map fun s => min s.avail s.spec).sum

/-- **C11** (partial): provided no machine set reports more available machines than desired ones, one rollout step keeps
the number of machines guaranteed available at least at the floor if it was there, and removes no available machine if it
was below. -/
theorem C11_floor_partial (d : Dep) (hd : d.strategy = .rolling) (env : Env) (hs : env.Sorts) (old : List MS) (new : MS)
    (hv : ∀ s ∈ new :: old, 0 ≤ s.avail ∧ s.avail ≤ s.spec) (hb : 0 ≤ maxUnavailable d) :
    let r := rolloutStep d env old new
    min (minAvailable d) (guaranteed (old ++ [new])) ≤ guaranteed (r.1 ++ [r.2]) := by
  intro r
  have hnn : ∀ s ∈ old, 0 ≤ s.avail ∧ 0 ≤ s.spec := fun s h => by have := hv s (by simp [h]); omega
  have hle : ∀ s ∈ old, s.avail ≤ s.spec := fun s h => (hv s (by simp [h])).2
  have hn := hv new (by simp)
  change min _ (keptAvail _) ≤ keptAvail _
  have e0 := keptAvail_eq old hle
  simp only [keptAvail_append, keptAvail_cons, keptAvail_nil, e0]
  simp only [minAvailable, hd, ne_eq, not_true_eq_false, if_false]
  rcases step_cases d env old new with h | ⟨n, hne, h, hc⟩ | ⟨old', h, ho, _, _⟩
  · simp only [r, h, e0]; omega
  · simp only [r, h, e0]
    rcases hc with ⟨h1, rfl⟩ | ⟨h1, h2⟩
    · have hav : 0 ≤ availSum old := by
        clear r h e0
        induction old with
        | nil => simp
        | cons s l ih =>
          have h1 := hnn s (by simp)
          have := ih (fun x hx => hv x (by simp at hx ⊢; rcases hx with h | h <;> simp [h])) (fun x hx => hnn x (by simp [hx])) (fun x hx => hle x (by simp [hx]))
          simp; omega
      omega
    · have := newReplicas_mono d hd _ new n (by omega) h2
      omega
  · simp only [r, h]
    have h2 := (reconcileOld_spec d env hs (specSum (old ++ [new])) (old.filter (fun s => s.spec > 0)) new (filter_forall _ _ hnn)).2.2 (filter_forall _ _ hle)
    have h3 := (filter_split_sum old (fun s => decide (s.spec > 0))).2
    have h4 := keptAvail_eq (old.filter (fun s => !decide (s.spec > 0))) (filter_forall _ _ hle)
    have h5 : availSum (old.filter (fun s => !decide (s.spec > 0))) = 0 := by
      have : ∀ s ∈ old.filter (fun s => !decide (s.spec > 0)), s.avail = 0 := by
        intro s hm
        have h1 := List.mem_filter.1 hm
        have := hv s (by simp [h1.1])
        simp at h1; omega
      revert this
      generalize old.filter (fun s => !decide (s.spec > 0)) = l
      intro this
      induction l with
      | nil => rfl
      | cons s l ih => simp [this s (by simp), ih (fun x hx => this x (by simp [hx]))]
    rw [ho, keptAvail_append (old.filter _), h4, h5]
    omega

/-- how many machines are reported available beyond what the sets are to have -/
def beyond (l : List MS) : Int := (l.map fun s => max 0 (s.avail - s.spec)).sum

theorem beyond_eq (l : List MS) : beyond l = availSum l - keptAvail l := by
  induction l with
  | nil => rfl
  | cons s l ih =>
    have e : beyond (s :: l) = max 0 (s.avail - s.spec) + beyond l := by simp [beyond]
    rw [e, ih]; simp; omega

theorem keptAvail_split (l : List MS) (p : MS → Bool) : keptAvail (l.filter (fun s => !p s)) + keptAvail (l.filter p) = keptAvail l := by
  induction l with
  | nil => simp
  | cons s l ih => cases h : p s <;> simp [h] <;> omega

theorem cleanup_kept (ok : MS → Bool) (maxC : Int) (l : List MS) : ∀ t, keptAvail (cleanupLoop ok maxC l t).1 = keptAvail l := by
  induction l with
  | nil => intro t; simp [cleanupLoop]
  | cons s rest ih =>
    intro t
    rcases cleanup_step ok maxC s rest t with ⟨t', e, h, _⟩ | ⟨_, _, h⟩ | ⟨c, hc0, hc1, _, _, h⟩
    · rw [h]
    · rw [h]; simp [ih]
    · rw [h]; simp [ih]; omega

theorem reconcileOld_kept (d : Dep) (env : Env) (hs : env.Sorts) (allSpec : Int) (old : List MS) (new : MS) (hnn : ∀ s ∈ old, 0 ≤ s.avail ∧ 0 ≤ s.spec) :
    keptAvail old - max 0 (availSum old + new.avail - (d.replicas - maxUnavailable d)) ≤ keptAvail (reconcileOld d env allSpec old new).1 := by
  unfold reconcileOld
  dsimp only
  split
  · dsimp only; omega
  split
  · dsimp only; omega
  · rename_i hm
    generalize hmax : allSpec - (d.replicas - maxUnavailable d) - (new.spec - new.avail) = maxDown
    have hk := cleanup_kept env.okClean maxDown (env.srt1 old) 0
    obtain ⟨c1, c2, c3, c4⟩ := cleanup_spec env.okClean maxDown (env.srt1 old) 0
    rw [keptAvail_perm (hs.1 old)] at hk
    rw [availSum_perm (hs.1 old)] at c3
    have hpos := c2 (mem_perm_forall (hs.1 old) hnn)
    split
    · dsimp only; rw [hk]; omega
    · have h2 := (scaleDownOld_spec d env.okDown env.srt2 hs.2 ((cleanupLoop env.okClean maxDown (env.srt1 old) 0).1 ++ [new])
        (cleanupLoop env.okClean maxDown (env.srt1 old) 0).1 (fun s h => (hpos s h).2)).2.2.2
      rw [hk] at h2
      simp only [availSum_append, availSum_cons, availSum_nil, c3] at h2
      split <;> (dsimp only; omega)

/-- **C11** (what holds in any case): whatever the sets report, a rollout step lets the number of machines guaranteed available fall below the floor by at most the number of
machines reported available beyond what their sets are to have. -/
theorem C11_floor_bound (d : Dep) (hd : d.strategy = .rolling) (env : Env) (hs : env.Sorts) (old : List MS) (new : MS)
    (hv : ∀ s ∈ new :: old, 0 ≤ s.avail ∧ 0 ≤ s.spec) (hb : 0 ≤ maxUnavailable d) :
    let r := rolloutStep d env old new
    min (minAvailable d - beyond (old ++ [new])) (guaranteed (old ++ [new])) ≤ guaranteed (r.1 ++ [r.2]) := by
  intro r
  have hnn : ∀ s ∈ old, 0 ≤ s.avail ∧ 0 ≤ s.spec := fun s h => hv s (by simp [h])
  have hn := hv new (by simp)
  have hbe := beyond_eq (old ++ [new])
  have hkn : ∀ l : List MS, (∀ s ∈ l, 0 ≤ s.avail ∧ 0 ≤ s.spec) → 0 ≤ keptAvail l ∧ keptAvail l ≤ availSum l := by
    intro l h
    induction l with
    | nil => simp
    | cons s l ih =>
      have h1 := h s (by simp)
      have := ih (fun x hx => h x (by simp [hx]))
      simp; omega
  have ho0 := hkn old hnn
  change min _ (keptAvail _) ≤ keptAvail _
  simp only [keptAvail_append, keptAvail_cons, keptAvail_nil, availSum_append, availSum_cons, availSum_nil] at hbe ⊢
  simp only [minAvailable, hd, ne_eq, not_true_eq_false, if_false]
  rcases step_cases d env old new with h | ⟨n, hne, h, hc⟩ | ⟨old', h, ho, _, _⟩
  · simp only [r, h]; omega
  · simp only [r, h]
    rcases hc with ⟨h1, rfl⟩ | ⟨h1, h2⟩
    · omega
    · have := newReplicas_mono d hd _ new n (by omega) h2
      omega
  · simp only [r, h]
    have h2 := reconcileOld_kept d env hs (specSum (old ++ [new])) (old.filter (fun s => s.spec > 0)) new (filter_forall _ _ hnn)
    have h3 := (filter_split_sum old (fun s => decide (s.spec > 0))).2
    have h4 := hkn _ (filter_forall old (fun s => !decide (s.spec > 0)) hnn)
    have h5 := keptAvail_split old (fun s => decide (s.spec > 0))
    rw [ho, keptAvail_append (old.filter _)]
    omega

/-- The unrestricted statement is false: a new set that still has more available machines than its desired size (it is
being scaled down) is counted in full, so old machines are removed and the guaranteed number drops below the floor. -/
theorem C11_shrinking_new_set_false :
    let d : Dep := { replicas := 4, maxSurge := some (.int 1), maxUnavailable := some (.int 0) }
    let old : List MS := [{ spec := 2, status := 2, avail := 2 }]
    let new : MS := { spec := 3, status := 6, avail := 6 }
    let r := rolloutStep d {} old new
    minAvailable d = 4 ∧ guaranteed (old ++ [new]) = 5 ∧ guaranteed (r.1 ++ [r.2]) = 3 := by decide

-- the bound of C11_floor_bound is reached: three machines beyond the new set's size, three below the floor
example : let d : Dep := { replicas := 4, maxSurge := some (.int 1), maxUnavailable := some (.int 0) }
    let old : List MS := [{ spec := 5, status := 5, avail := 5 }]
    let new : MS := { spec := 1, status := 4, avail := 4 }
    let r := rolloutStep d {} old new
    minAvailable d = 4 ∧ beyond (old ++ [new]) = 3 ∧ guaranteed (old ++ [new]) = 6 ∧ guaranteed (r.1 ++ [r.2]) = 1 := by decide

-- a step that removes one available and one unavailable old machine and stays on the floor
example : let d : Dep := { replicas := 4, maxSurge := some (.int 1), maxUnavailable := some (.int 1) }
    rolloutStep d {} [{ spec := 3, status := 3, avail := 2 }] { spec := 2, status := 2, avail := 2 }
      = ([{ spec := 1, status := 3, avail := 2 }], { spec := 2, status := 2, avail := 2 }) := by decide

/-! ## C12 -/

/-- the rollout is complete -/
def Complete (d : Dep) (s : Sizes) : Prop := s.new = d.replicas ∧ ∀ x ∈ s.old, x = 0

/-- remaining work -/
def work (d : Dep) (s : Sizes) : Nat := (s.old.sum + (d.replicas - s.new).natAbs).toNat

/-- machine sets have caught up: as many machines exist and are available as desired -/
def Settled (s : MS) : Prop := 0 ≤ s.spec ∧ s.status = s.spec ∧ s.avail = s.spec

/-- every API call of the run succeeds -/
def AllOk (env : Env) : Prop := env.preOk = true ∧ env.okNew = true ∧ (∀ s, env.okClean s = true) ∧ ∀ s, env.okDown s = true

/-- any view with non-negative numbers -/
def Plausible (s : MS) : Prop := 0 ≤ s.spec ∧ 0 ≤ s.avail

/-- histories of rollout steps; `n` counts the steps that found every machine set caught up and whose calls succeeded -/
inductive Run (d : Dep) : Sizes → Nat → Sizes → Prop
  | refl (a) : Run d a 0 a
  | any {a b c n} : Run d a n b → StepRel d Plausible (fun _ => True) b c → Run d a n c
  | settled {a b c n} : Run d a n b → StepRel d Settled AllOk b c → Run d a (n + 1) c

def Nonneg (s : Sizes) : Prop := 0 ≤ s.new ∧ ∀ x ∈ s.old, 0 ≤ x

theorem sum_nonneg (l : List Int) (h : ∀ x ∈ l, 0 ≤ x) : 0 ≤ l.sum := by
  induction l with
  | nil => simp
  | cons x l ih => have := h x (by simp); have := ih (fun y hy => h y (by simp [hy])); simp; omega

theorem sum_zero (l : List Int) (h : ∀ x ∈ l, 0 ≤ x) (hz : l.sum = 0) : ∀ x ∈ l, x = 0 := by
  induction l with
  | nil => simp
  | cons x l ih =>
    have h1 := h x (by simp)
    have h2 := sum_nonneg l (fun y hy => h y (by simp [hy]))
    simp at hz
    intro y hy
    rcases List.mem_cons.1 hy with rfl | hy
    · omega
    · exact ih (fun y hy => h y (by simp [hy])) (by omega) y hy

theorem step_nonincreasing (d : Dep) (hd : d.strategy = .rolling) (hr : 0 ≤ d.replicas) (a b : Sizes)
    (h : StepRel d Plausible (fun _ => True) a b) : Nonneg b ∧ work d b ≤ work d a := by
  obtain ⟨env, old, new, hs, _, hv, hperm, hnew, rfl⟩ := h
  have hsum := sum_perm hperm
  change specSum old = _ at hsum
  have hnn : ∀ s ∈ old, 0 ≤ s.avail ∧ 0 ≤ s.spec := fun s h => by have := hv s (by simp [h]); unfold Plausible at this; omega
  have hn : 0 ≤ new.spec ∧ 0 ≤ new.avail := hv new (by simp)
  have hos : 0 ≤ specSum old := specSum_nonneg old (fun s h => (hnn s h).2)
  have key : ∀ (o : List MS) (w : MS), (∀ s ∈ o, 0 ≤ s.spec) → 0 ≤ w.spec → specSum o ≤ specSum old →
      (d.replicas - w.spec).natAbs ≤ (d.replicas - new.spec).natAbs →
      Nonneg (sizesOf o w) ∧ work d (sizesOf o w) ≤ work d a := by
    intro o w h1 h2 h3 h4
    refine ⟨⟨h2, ?_⟩, ?_⟩
    · intro x hx; simp only [sizesOf, List.mem_map] at hx
      obtain ⟨s, hs, rfl⟩ := hx; exact h1 s hs
    · unfold work
      change (specSum o + ((d.replicas - w.spec).natAbs : Int)).toNat ≤ _
      rw [← hnew, ← hsum]; omega
  rcases step_cases d env old new with h | ⟨n, hne, h, hc⟩ | ⟨old', h, ho, _, _⟩
  · rw [h]; exact key old new (fun s h => (hnn s h).2) hn.1 (by omega) (by omega)
  · rw [h]
    rcases hc with ⟨h1, rfl⟩ | ⟨h1, h2⟩
    · exact key old _ (fun s h => (hnn s h).2) hr (by omega) (by simp)
    · have := newReplicas_mono d hd _ new n (by omega) h2
      exact key old _ (fun s h => (hnn s h).2) (by simp only; omega) (by omega) (by simp only; omega)
  · rw [h]
    have h2 := reconcileOld_spec d env hs (specSum (old ++ [new])) (old.filter (fun s => s.spec > 0)) new (filter_forall _ _ hnn)
    have h3 := (filter_split_sum old (fun s => decide (s.spec > 0))).1
    refine key old' new ?_ hn.1 ?_ (by omega)
    · intro s hm; rw [ho] at hm
      rcases List.mem_append.1 hm with hm | hm
      · exact (filter_forall _ _ hnn s hm).2
      · exact (h2.2.1 s hm).2
    · rw [ho, specSum_append (old.filter _)]; omega

theorem settled_sums (l : List MS) (h : ∀ s ∈ l, Settled s) : statusSum l = specSum l ∧ availSum l = specSum l := by
  induction l with
  | nil => simp
  | cons s l ih =>
    have := h s (by simp); have := ih (fun x hx => h x (by simp [hx]))
    unfold Settled at *
    simp; omega

theorem maxUnav_pos (d : Dep) (surge unav : Int) (hd : d.strategy = .rolling) (hr : 0 ≤ d.replicas)
    (hsu : scaledValue d.maxSurge d.replicas true = some surge) (hun : scaledValue d.maxUnavailable d.replicas false = some unav)
    (h0 : 0 ≤ surge) (h1 : 0 ≤ unav) : 0 ≤ maxUnavailable d ∧ (d.replicas > 0 → 0 < surge + maxUnavailable d) := by
  unfold maxUnavailable
  by_cases hz : d.replicas = 0
  · simp [hz]
  · simp only [hd, hz, resolveFenceposts, hsu, hun]
    by_cases hb : surge = 0 ∧ unav = 0
    · simp [hb]; split <;> omega
    · simp [hb]; split <;> omega

theorem step_settled (d : Dep) (surge unav : Int) (hd : d.strategy = .rolling) (hr : 0 ≤ d.replicas)
    (hsu : scaledValue d.maxSurge d.replicas true = some surge) (hun : scaledValue d.maxUnavailable d.replicas false = some unav)
    (h0 : 0 ≤ surge) (h1 : 0 ≤ unav) (a b : Sizes) (h : StepRel d Settled AllOk a b) (hw : 0 < work d a) : work d b < work d a := by
  obtain ⟨env, old, new, hs, hok, hv, hperm, hnew, rfl⟩ := h
  obtain ⟨hp, hokn, hokc, hokd⟩ := hok
  have hsum := sum_perm hperm
  change specSum old = _ at hsum
  have hso : ∀ s ∈ old, Settled s := fun s h => hv s (by simp [h])
  have hn : Settled new := hv new (by simp)
  have hall : ∀ s ∈ old ++ [new], Settled s := by
    intro s h; rcases List.mem_append.1 h with h | h
    · exact hso s h
    · simp at h; rw [h]; exact hn
  have hos : 0 ≤ specSum old := specSum_nonneg old (fun s h => (hso s h).1)
  obtain ⟨m1, m2⟩ := maxUnav_pos d surge unav hd hr hsu hun h0 h1
  have hst := (settled_sums _ hall).1
  simp only [specSum_append, specSum_cons, specSum_nil, statusSum_append, statusSum_cons, statusSum_nil] at hst
  have hn' := hn
  obtain ⟨n1, n2, n3⟩ := hn'
  unfold work at hw ⊢
  rw [← hnew, ← hsum] at hw ⊢
  change (specSum (rolloutStep d env old new).1 + ((d.replicas - (rolloutStep d env old new).2.spec).natAbs : Int)).toNat < _
  -- the old sets shrink
  have shrink : (reconcileNew d env.okNew (old ++ [new]) new) = (new, false, false) → 0 < specSum old →
      specSum old + new.spec > d.replicas - maxUnavailable d →
      specSum (rolloutStep d env old new).1 < specSum old ∧ (rolloutStep d env old new).2 = new := by
    intro hrn hpos hfl
    unfold rolloutStep
    simp only [hp, Bool.not_true, Bool.false_eq_true, if_false, hrn, Bool.or_self]
    refine ⟨?_, trivial⟩
    have hsp := filter_split_sum old (fun s => decide (s.spec > 0))
    have hfz : specSum (old.filter (fun s => !decide (s.spec > 0))) = 0 := by
      have h1 : ∀ s ∈ old.filter (fun s => !decide (s.spec > 0)), s.spec = 0 := by
        intro s hm
        have h1 := List.mem_filter.1 hm
        have := (hso s h1.1).1
        simp at h1; omega
      revert h1
      generalize old.filter (fun s => !decide (s.spec > 0)) = l
      intro this
      induction l with
      | nil => rfl
      | cons s l ih => simp [this s (by simp), ih (fun x hx => this x (by simp [hx]))]
    simp only [specSum_append, hfz]
    have hfs : ∀ s ∈ old.filter (fun s => decide (s.spec > 0)), Settled s := filter_forall _ _ hso
    have hpos' : 0 < specSum (old.filter (fun s => decide (s.spec > 0))) := by omega
    rw [show specSum old = specSum (old.filter (fun s => decide (s.spec > 0))) by omega]
    rw [show specSum old = specSum (old.filter (fun s => decide (s.spec > 0))) by omega] at hfl
    generalize hF : old.filter (fun s => decide (s.spec > 0)) = F at *
    unfold reconcileOld
    simp only [show specSum F ≠ 0 by omega, if_false, specSum_cons, specSum_nil]
    rw [if_neg (by omega)]
    rw [cleanup_settled env.okClean _ (env.srt1 F) (fun s hs' => ((mem_perm_forall (hs.1 F) hfs) s hs').2.2.symm)]
    simp only [Bool.false_eq_true, if_false]
    have hP := hs.1 F
    have hPs : ∀ s ∈ env.srt1 F, Settled s := mem_perm_forall hP hfs
    have hPsum := specSum_perm hP
    generalize env.srt1 F = G at *
    unfold scaleDownOld
    have hGa := (settled_sums G hPs).2
    simp only [availSum_append, availSum_cons, availSum_nil]
    have hneg : ¬ availSum G + (new.avail + 0) ≤ d.replicas - maxUnavailable d := by omega
    simp only [hneg, if_false]
    have h5 := scaleDown_progress env.okDown (availSum G + (new.avail + 0) - (d.replicas - maxUnavailable d)) (env.srt2 G) 0
      (fun s h => (mem_perm_forall (hs.2 G) hPs s h).1) hokd (by omega) (by rw [specSum_perm (hs.2 G)]; omega)
    rw [specSum_perm (hs.2 G)] at h5
    have h5' := h5.1
    split <;> dsimp only <;> omega
  by_cases c1 : new.spec = d.replicas
  · have hrn : (reconcileNew d env.okNew (old ++ [new]) new) = (new, false, false) := by simp [reconcileNew, c1]
    have := shrink hrn (by omega) (by omega)
    rw [this.2]; omega
  · by_cases c2 : new.spec > d.replicas
    · have : rolloutStep d env old new = (old, { new with spec := d.replicas }) := by
        simp [rolloutStep, hp, reconcileNew, c1, c2, scaleTo, hokn]
      rw [this]; simp only; omega
    · by_cases c3 : specSum old + new.spec < d.replicas + surge
      · have : rolloutStep d env old new = (old, { new with spec := new.spec + min (d.replicas + surge - (specSum old + new.spec)) (d.replicas - new.spec) }) := by
          have c3' : ¬ d.replicas + surge ≤ specSum old + new.spec := by omega
          have c4 : ¬ new.spec = new.spec + min (d.replicas + surge - (specSum old + new.spec)) (d.replicas - new.spec) := by omega
          have hq : newReplicas d (old ++ [new]) new = some (new.spec + min (d.replicas + surge - (specSum old + new.spec)) (d.replicas - new.spec)) := by
            have : statusSum (old ++ [new]) = specSum old + new.spec := by simp; omega
            unfold newReplicas
            simp only [hd, hsu, this, ge_iff_le, c3', if_false]
          unfold rolloutStep reconcileNew
          simp only [hp, c1, c2, hq, scaleTo, c4, hokn]
          simp
        rw [this]; simp only; omega
      · have hq : newReplicas d (old ++ [new]) new = some new.spec := by
          have e : statusSum (old ++ [new]) = specSum old + new.spec := by simp; omega
          have c3' : d.replicas + surge ≤ specSum old + new.spec := by omega
          unfold newReplicas
          simp only [hd, hsu, e, ge_iff_le, c3', if_true]
        have hrn : (reconcileNew d env.okNew (old ++ [new]) new) = (new, false, false) := by
          simp [reconcileNew, c1, c2, hq, scaleTo]
        have := shrink hrn (by omega) (by have := m2 (by omega); omega)
        rw [this.2]; omega

theorem settled_plausible {d : Dep} {a b : Sizes} (h : StepRel d Settled AllOk a b) : StepRel d Plausible (fun _ => True) a b := by
  obtain ⟨env, old, new, hs, _, hv, h2⟩ := h
  exact ⟨env, old, new, hs, trivial, fun s h => by have := hv s h; unfold Settled Plausible at *; omega, h2⟩

/-- **C12** (no regress): whatever the cache shows and whichever calls fail, a rollout step never adds work: no size
becomes negative, and the distance to completion does not grow. -/
theorem C12_never_regresses (d : Dep) (hd : d.strategy = .rolling) (hr : 0 ≤ d.replicas) (a b : Sizes) (ha : Nonneg a) (n : Nat)
    (h : Run d a n b) : Nonneg b ∧ work d b ≤ work d a := by
  induction h with
  | refl => exact ⟨ha, Nat.le_refl _⟩
  | any _ hs ih => have := step_nonincreasing d hd hr _ _ hs; exact ⟨this.1, Nat.le_trans this.2 ih.2⟩
  | settled _ hs ih => have := step_nonincreasing d hd hr _ _ (settled_plausible hs); exact ⟨this.1, Nat.le_trans this.2 ih.2⟩

/-- **C12**. From every starting distribution and for all non-negative budgets (both zero included: then one machine at a
time is replaced), every history in which at least `Σ old + |replicas - new|` of the steps find the machine sets caught up
– among any number of other steps, failures and stale views – ends with the new set at `replicas` and every old set at
zero. -/
theorem C12_rollout_completes (d : Dep) (surge unav : Int) (hd : d.strategy = .rolling) (hr : 0 ≤ d.replicas)
    (hsu : scaledValue d.maxSurge d.replicas true = some surge) (hun : scaledValue d.maxUnavailable d.replicas false = some unav)
    (h0 : 0 ≤ surge) (h1 : 0 ≤ unav) (a b : Sizes) (ha : Nonneg a) (n : Nat) (h : Run d a n b) (hn : work d a ≤ n) :
    Complete d b := by
  have key : work d b ≤ work d a - n ∧ Nonneg b := by
    clear hn
    induction h with
    | refl => exact ⟨by omega, ha⟩
    | any _ hs ih => have := step_nonincreasing d hd hr _ _ hs; exact ⟨by omega, this.1⟩
    | settled _ hs ih =>
      rename_i b' c' n' _
      have h2 := step_nonincreasing d hd hr _ _ (settled_plausible hs)
      refine ⟨?_, h2.1⟩
      by_cases hw : 0 < work d b'
      · have := step_settled d surge unav hd hr hsu hun h0 h1 _ _ hs hw; omega
      · omega
  obtain ⟨k1, k2⟩ := key
  have hz : work d b = 0 := by omega
  have := sum_nonneg _ k2.2
  unfold work at hz
  exact ⟨by omega, sum_zero _ k2.2 (by omega)⟩

-- a concrete run: 2 old machines, none new, surge 1: four settled steps
section
private def exD : Dep := { replicas := 2, maxSurge := some (.int 1), maxUnavailable := some (.int 0) }
private def exS (n : Int) : MS := { spec := n, status := n, avail := n }
private theorem exStep (x y x' y' : Int) (h : rolloutStep exD {} [exS x] (exS y) = (if x = x' then [exS x] else [{ exS x with spec := x' }], { exS y with spec := y' }))
    (hx : 0 ≤ x) (hy : 0 ≤ y) : StepRel exD Settled AllOk ⟨[x], y⟩ ⟨[x'], y'⟩ := by
  refine ⟨{}, [exS x], exS y, ⟨fun _ => List.Perm.refl _, fun _ => List.Perm.refl _⟩, ⟨rfl, rfl, fun _ => rfl, fun _ => rfl⟩, ?_, List.Perm.refl _, rfl, ?_⟩
  · intro s hs; simp at hs; rcases hs with rfl | rfl <;> exact ⟨by simpa [exS], rfl, rfl⟩
  · rw [h]; by_cases e : x = x'
    · subst e; simp [sizesOf, exS]
    · simp [sizesOf, e]
example : Run exD ⟨[2], 0⟩ 4 ⟨[0], 2⟩ := by
  have s1 := exStep 2 0 2 1 (by decide) (by omega) (by omega)
  have s2 := exStep 2 1 1 1 (by decide) (by omega) (by omega)
  have s3 := exStep 1 1 1 2 (by decide) (by omega) (by omega)
  have s4 := exStep 1 2 0 2 (by decide) (by omega) (by omega)
  exact (((Run.settled (.refl _) s1).settled s2).settled s3).settled s4
example : work exD ⟨[2], 0⟩ = 4 := rfl
end

end MCM.Rolling
