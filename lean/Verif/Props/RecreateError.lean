import Verif.Model.RecreateError
/-!
C145: a run of the strategy Recreate that ends without an error has done all that it wanted to do.
-/
namespace MCM.Recreate
open MCM MCM.Rolling MCM.Scale

/-! ### Specification -/

/-- an old set is still to be scaled down -/
def Sized (v : View) : Prop := ∃ s ∈ v.old, s.spec > 0

/-- old machines are left: the old sets report some, or a set other than that of the current template has some -/
def Left (v : View) : Prop :=
  (v.old.map fun s => v.status s.name).sum > 0 ∨ ∃ s ∈ v.old, v.machines s.name > 0 ∧ ∀ n, v.new = some n → n.name ≠ s.name

/-- the set that is to carry the current template: there, or created in this run -/
def Target (o : Out) (v : View) (n : MSet) : Prop := v.new = some n ∨ v.new = none ∧ o.created = some n

/-- what can go wrong in a run -/
inductive Fails (d : Dep) (o : Out) (r : Rest) (v : View) : Prop
  | before : o.preOk = false → Fails d o r v
  /-- a size of an old set -/
  | old (s : MSet) : s ∈ v.old → s.spec > 0 → o.scaleEnv.ok s = false → Fails d o r v
  /-- the creation of the set of the current template -/
  | create : ¬ Sized v → ¬ Left v → v.new = none → o.created = none → Fails d o r v
  /-- the size of that set -/
  | size (n : MSet) : ¬ Sized v → ¬ Left v → Target o v n → n.spec ≠ d.replicas → o.scaleEnv.ok n = false → Fails d o r v
  /-- the clean-up after the rollout -/
  | clean : ¬ Sized v → ¬ Left v → r.complete = true → r.cleanOk = false → Fails d o r v
  | status : r.statusOk = false → Fails d o r v

/-! ### Proofs -/

theorem active_length {v : View} : (active v.old).length > 0 ↔ Sized v := by
  unfold active Sized
  rw [gt_iff_lt, List.length_pos_iff_exists_mem]
  simp [List.mem_filter]

theorem running_iff {v : View} : oldMachinesRunning v = true ↔ Left v := by
  unfold oldMachinesRunning Left
  split
  · rename_i h; simp [h]
  rename_i h
  simp only [h, false_or, List.any_eq_true, List.mem_append, List.mem_map, Option.mem_toList]
  constructor
  · rintro ⟨n, hn, hc⟩
    split at hc
    · cases hc
    rename_i hne
    rcases hn with ⟨s, hs, rfl⟩ | ⟨s, hs, rfl⟩
    · refine ⟨s, hs, by simpa using hc, ?_⟩
      intro n hn he
      rw [hn] at hne
      exact hne (by simp [he])
    · rw [hs] at hne; exact absurd rfl hne
  · rintro ⟨s, hs, hm, hn⟩
    refine ⟨s.name, Or.inl ⟨s, hs, rfl⟩, ?_⟩
    rw [if_neg]
    · simpa using hm
    · intro he
      obtain ⟨n, h1, h2⟩ := Option.map_eq_some_iff.1 he
      exact hn n h1 h2

theorem scaleEv_error {d : Dep} {ok : Bool} {s : MSet} {n : Int} : (scaleSetEv d ok s n).2 = true ↔ s.spec ≠ n ∧ ok = false := by
  unfold scaleSetEv scaleSet
  by_cases h : s.spec = n
  · simp [h]
  · rw [if_neg h, if_pos (Or.inl h)]
    cases ok <;> simp [h]

theorem scaleEv_size {d : Dep} {ok : Bool} {s : MSet} {n : Int} (h : (scaleSetEv d ok s n).2 = false) :
    (scaleSetEv d ok s n).1.spec = n ∧ (scaleSetEv d ok s n).1.name = s.name := by
  unfold scaleSetEv scaleSet at h ⊢
  by_cases he : s.spec = n
  · simp [he]
  · rw [if_neg he, if_pos (Or.inl he)] at h ⊢
    cases ok with
    | false => cases h
    | true => exact ⟨rfl, rfl⟩

theorem zeroAll_error {d : Dep} {ok : MSet → Bool} : ∀ l : List MSet, (zeroAll d ok l).2 = true ↔ ∃ s ∈ l, s.spec ≠ 0 ∧ ok s = false
  | [] => by simp [zeroAll]
  | s :: rest => by
    unfold zeroAll
    dsimp only
    split
    · rename_i h
      have := scaleEv_error.1 h
      simp only [true_iff]
      exact ⟨s, List.mem_cons_self, this⟩
    · rename_i h
      have h1 : ¬ (s.spec ≠ 0 ∧ ok s = false) := fun hc => h (scaleEv_error.2 hc)
      dsimp only
      rw [zeroAll_error rest]
      constructor
      · rintro ⟨x, hx, hc⟩; exact ⟨x, List.mem_cons_of_mem _ hx, hc⟩
      · rintro ⟨x, hx, hc⟩
        rcases List.mem_cons.1 hx with rfl | hx
        · exact absurd hc h1
        · exact ⟨x, hx, hc⟩

theorem zeroAll_sizes {d : Dep} {ok : MSet → Bool} : ∀ l : List MSet, (zeroAll d ok l).2 = false →
    (zeroAll d ok l).1.map (·.name) = l.map (·.name) ∧ ∀ s ∈ (zeroAll d ok l).1, s.spec = 0
  | [] => by simp [zeroAll]
  | s :: rest => by
    unfold zeroAll
    dsimp only
    split
    · intro h; cases h
    · rename_i h
      intro h2
      obtain ⟨h3, h4⟩ := zeroAll_sizes rest h2
      obtain ⟨h5, h6⟩ := scaleEv_size (Bool.eq_false_iff.2 h)
      refine ⟨by simp [h3, h6], ?_⟩
      intro x hx
      rcases List.mem_cons.1 hx with rfl | hx
      · exact h5
      · exact h4 x hx

theorem finish_iff {d : Dep} {o : Out} {r : Rest} {n : MSet} : finishError d o r n = true ↔
    (n.spec ≠ d.replicas ∧ o.scaleEnv.ok n = false) ∨ (r.complete = true ∧ r.cleanOk = false) ∨ r.statusOk = false := by
  unfold finishError
  split
  · rename_i h; simp [scaleEv_error.1 h]
  · rename_i h
    have h1 : ¬ (n.spec ≠ d.replicas ∧ o.scaleEnv.ok n = false) := fun hc => h (scaleEv_error.2 hc)
    simp only [h1, false_or]
    cases r.complete <;> cases r.cleanOk <;> cases r.statusOk <;> simp

/-- **C145**. A run reports an error exactly if one of the calls it had to make failed. -/
theorem C145_error_iff (d : Dep) (o : Out) (r : Rest) (v : View) : rolloutError d o r v = true ↔ Fails d o r v := by
  unfold rolloutError
  by_cases hp : o.preOk = true
  case neg => simp only [hp]; simpa using Fails.before (by simpa using hp)
  rw [hp]
  simp only [Bool.not_true, Bool.false_eq_true, if_false]
  by_cases hs : Sized v
  · rw [if_pos (active_length.2 hs)]
    have hz := zeroAll_error (d := d) (ok := o.scaleEnv.ok) (active v.old)
    have hz2 : (zeroAll d o.scaleEnv.ok (active v.old)).2 = true ↔ ∃ s ∈ v.old, s.spec > 0 ∧ o.scaleEnv.ok s = false := by
      rw [hz]
      constructor
      · rintro ⟨s, h1, _, h3⟩
        have := List.mem_filter.1 h1
        exact ⟨s, this.1, by simpa using this.2, h3⟩
      · rintro ⟨s, h1, h2, h3⟩
        exact ⟨s, List.mem_filter.2 ⟨h1, by simpa using h2⟩, by omega, h3⟩
    constructor
    · intro h
      split at h
      · rename_i hc
        obtain ⟨s, h1, h2, h3⟩ := hz2.1 hc
        exact .old s h1 h2 h3
      · exact .status (by simpa using h)
    · intro h
      cases h with
      | before h => rw [hp] at h; cases h
      | old s h1 h2 h3 => rw [if_pos (hz2.2 ⟨s, h1, h2, h3⟩)]
      | create h => exact absurd hs h
      | size n h => exact absurd hs h
      | clean h => exact absurd hs h
      | status h => rw [h]; simp
  rw [if_neg (fun h => hs (active_length.1 h))]
  by_cases hl : Left v
  · rw [if_pos (running_iff.2 hl)]
    constructor
    · intro h; exact .status (by simpa using h)
    · intro h
      cases h with
      | before h => rw [hp] at h; cases h
      | old s h1 h2 h3 => exact absurd ⟨s, h1, h2⟩ hs
      | create _ h => exact absurd hl h
      | size n _ h => exact absurd hl h
      | clean _ h => exact absurd hl h
      | status h => rw [h]; rfl
  rw [if_neg (fun h => hl (running_iff.1 h))]
  have hfin : ∀ n, Target o v n → (finishError d o r n = true ↔ Fails d o r v) := by
    intro n ht
    rw [finish_iff]
    constructor
    · rintro (⟨h1, h2⟩ | ⟨h1, h2⟩ | h1)
      · exact .size n hs hl ht h1 h2
      · exact .clean hs hl h1 h2
      · exact .status h1
    · intro h
      cases h with
      | before h => rw [hp] at h; cases h
      | old s h1 h2 h3 => exact absurd ⟨s, h1, h2⟩ hs
      | create _ _ h1 h2 =>
        rcases ht with h | ⟨_, h⟩
        · rw [h1] at h; cases h
        · rw [h2] at h; cases h
      | size m _ _ hm h1 h2 =>
        have : m = n := by
          rcases ht with h | ⟨h, h'⟩ <;> rcases hm with k | ⟨k, k'⟩ <;> simp_all
        subst this
        exact .inl ⟨h1, h2⟩
      | clean _ _ h1 h2 => exact .inr (.inl ⟨h1, h2⟩)
      | status h => exact .inr (.inr h)
  cases hn : v.new with
  | some n => exact hfin n (.inl hn)
  | none =>
    dsimp only
    cases hc : o.created with
    | some n => exact hfin n (.inr ⟨hn, hc⟩)
    | none => simpa using Fails.create hs hl hn hc

/-- **C145**. A run that reports no error leaves no old set with a size; if old sets had a size or machines, the set of the current template is as before; otherwise it is there with the
size of the deployment. -/
theorem C145_silent_is_done (d : Dep) (o : Out) (r : Rest) (v : View) (h : rolloutError d o r v = false) :
    (∀ s ∈ (rolloutRecreate d o v).1, ¬ s.spec > 0) ∧ ((Sized v ∨ Left v) → (rolloutRecreate d o v).2 = v.new) ∧
      (¬ Sized v → ¬ Left v → ∃ n m, Target o v n ∧ (rolloutRecreate d o v).2 = some m ∧ m.name = n.name ∧ m.spec = d.replicas) := by
  have hno : ¬ Fails d o r v := fun hc => by rw [(C145_error_iff d o r v).2 hc] at h; cases h
  have hp : o.preOk = true := by
    refine Classical.byContradiction fun hc => ?_
    exact hno (.before (by simpa using hc))
  unfold rolloutRecreate
  rw [hp]
  simp only [Bool.not_true, Bool.false_eq_true, if_false]
  by_cases hs : Sized v
  · rw [if_pos (active_length.2 hs)]
    have hz : (zeroAll d o.scaleEnv.ok (active v.old)).2 = false := by
      refine Classical.byContradiction fun hc => ?_
      obtain ⟨s, h1, _, h3⟩ := (zeroAll_error _).1 (by simpa using hc)
      have := List.mem_filter.1 h1
      exact hno (.old s this.1 (by simpa using this.2) h3)
    refine ⟨?_, fun _ => rfl, fun hc => absurd hs hc⟩
    intro s hm
    rcases List.mem_append.1 hm with hm | hm
    · simpa using (List.mem_filter.1 hm).2
    · have := (zeroAll_sizes _ hz).2 s hm
      omega
  rw [if_neg (fun h => hs (active_length.1 h))]
  have hold : ∀ s ∈ v.old, ¬ s.spec > 0 := fun s h1 h2 => hs ⟨s, h1, h2⟩
  by_cases hl : Left v
  · rw [if_pos (running_iff.2 hl)]
    exact ⟨hold, fun _ => rfl, fun _ hc => absurd hl hc⟩
  rw [if_neg (fun h => hl (running_iff.1 h))]
  have hfin : ∀ n, Target o v n → (scaleSetEv d (o.scaleEnv.ok n) n d.replicas).1.spec = d.replicas ∧ (scaleSetEv d (o.scaleEnv.ok n) n d.replicas).1.name = n.name := by
    intro n ht
    apply scaleEv_size
    refine Classical.byContradiction fun hc => ?_
    obtain ⟨h1, h2⟩ := scaleEv_error.1 (by simpa using hc)
    exact hno (.size n hs hl ht h1 h2)
  cases hn : v.new with
  | some n => exact ⟨hold, fun hc => absurd hc (by simp [hs, hl]), fun _ _ => ⟨n, _, .inl hn, rfl, (hfin n (.inl hn)).2, (hfin n (.inl hn)).1⟩⟩
  | none =>
    dsimp only
    cases hc : o.created with
    | some n => exact ⟨hold, fun hc => absurd hc (by simp [hs, hl]), fun _ _ => ⟨n, _, .inr ⟨hn, hc⟩, rfl, (hfin n (.inr ⟨hn, hc⟩)).2, (hfin n (.inr ⟨hn, hc⟩)).1⟩⟩
    | none => exact absurd (.create hs hl hn hc) hno

/-! ### Scaling -/

theorem scaleSet_same {d : Dep} {ok : Bool} {s : MSet} {n : Int} (h : (scaleSet d ok s n).2 = false) : scaleSet d ok s n = scaleSet d true s n := by
  unfold scaleSet at h ⊢
  split
  · rename_i hc
    rw [if_pos hc] at h
    cases ok with
    | false => cases h
    | true => rfl
  · rfl

theorem scaleEv_same {d : Dep} {ok : Bool} {s : MSet} {n : Int} (h : (scaleSetEv d ok s n).2 = false) : scaleSetEv d ok s n = scaleSetEv d true s n := by
  unfold scaleSetEv at h ⊢
  split
  · rfl
  · rename_i hc
    rw [if_neg hc] at h
    exact scaleSet_same h

theorem zeroAll_same {d : Dep} {ok : MSet → Bool} : ∀ l : List MSet, (zeroAll d ok l).2 = false → zeroAll d ok l = zeroAll d (fun _ => true) l
  | [], _ => rfl
  | s :: rest, h => by
    unfold zeroAll at h ⊢
    dsimp only at h ⊢
    by_cases hc : (scaleSetEv d (ok s) s 0).2 = true
    · rw [if_pos hc] at h; cases h
    · rw [if_neg hc] at h
      have h1 := scaleEv_same (Bool.eq_false_iff.2 hc)
      rw [if_neg hc, zeroAll_same rest h, ← h1, if_neg hc]

theorem writeAll_same {d : Dep} {ok : MSet → Bool} : ∀ l : List (MSet × Int), (writeAll d ok l).2 = false → writeAll d ok l = writeAll d (fun _ => true) l
  | [], _ => rfl
  | (s, n) :: rest, h => by
    unfold writeAll at h ⊢
    dsimp only at h ⊢
    by_cases hc : (scaleSet d (ok s) s n).2 = true
    · rw [if_pos hc] at h; cases h
    · rw [if_neg hc] at h
      have h1 := scaleSet_same (Bool.eq_false_iff.2 hc)
      rw [if_neg hc, writeAll_same rest h, ← h1, if_neg hc]

/-- **C145**, for a change of the size (or a pause), with either strategy: a run that reports no error has stored what it would have stored with calls that succeed. -/
theorem C145_scaling_is_done (d : Dep) (env : Scale.Env) (old : List MSet) (new : Option MSet) (h : (scale d env old new).2 = false) :
    scale d env old new = scale d { env with ok := fun _ => true } old new := by
  unfold scale at h ⊢
  have hf : findActiveOrLatest { env with ok := fun _ => true } old new = findActiveOrLatest env old new := rfl
  rw [hf]
  dsimp only at h ⊢
  cases hs : findActiveOrLatest env old new with
  | some s =>
    rw [hs] at h
    dsimp only at h ⊢
    by_cases hc : s.spec = d.replicas
    · rw [if_pos hc] at h
      rw [if_pos hc, if_pos hc, scaleSet_same h]
    · rw [if_neg hc] at h
      rw [if_neg hc, if_neg hc, scaleEv_same h]
  | none =>
    rw [hs] at h
    dsimp only at h ⊢
    by_cases h1 : isSaturated d new = true
    · rw [if_pos h1] at h
      rw [if_pos h1, if_pos h1, zeroAll_same _ h]
    rw [if_neg h1] at h
    rw [if_neg h1, if_neg h1]
    by_cases h2 : d.strategy = .rolling
    · rw [if_pos h2] at h
      rw [if_pos h2, if_pos h2]
      by_cases h3 : allowedSize d - total (active (old ++ new.toList)) ≥ 0
      · rw [if_pos h3] at h
        rw [if_pos h3, if_pos h3, writeAll_same _ h]
      · rw [if_neg h3] at h
        rw [if_neg h3, if_neg h3, writeAll_same _ h]
    · rw [if_neg h2, if_neg h2]

/-- an error is reported only if a call failed -/
theorem C145_scaling_error (d : Dep) (env : Scale.Env) (old : List MSet) (new : Option MSet) (hok : ∀ s, env.ok s = true) : (scale d env old new).2 = false := by
  have hset : ∀ s n, (scaleSet d true s n).2 = false := by
    intro s n; unfold scaleSet; split <;> rfl
  have hev : ∀ s n, (scaleSetEv d true s n).2 = false := by
    intro s n; unfold scaleSetEv; split
    · rfl
    · exact hset s n
  have hz : ∀ l, (zeroAll d env.ok l).2 = false := by
    intro l
    induction l with
    | nil => rfl
    | cons s l ih => unfold zeroAll; dsimp only; rw [hok, if_neg (by rw [hev]; decide)]; exact ih
  have hw : ∀ l, (writeAll d env.ok l).2 = false := by
    intro l
    induction l with
    | nil => rfl
    | cons s l ih => unfold writeAll; dsimp only; rw [hok, if_neg (by rw [hset]; decide)]; exact ih
  unfold scale
  dsimp only
  split
  · dsimp only
    rw [hok]
    split
    · exact hset _ _
    · exact hev _ _
  split
  · exact hz _
  split
  · split
    · exact hw _
    · exact hw _
  · rfl

/-! ### Instances -/

/-- two sets of a rolling deployment scaled from four machines to six: the second call fails, which is reported -/
example : let d : Dep := { replicas := 6, strategy := .rolling, maxSurge := none, maxUnavailable := none }
    let old : List MSet := [{ name := "a", spec := 2 }]
    let new : MSet := { name := "b", spec := 2 }
    (scale d { ok := fun s => s.name != "b" } old (some new)).2 = true ∧ (scale d {} old (some new)).2 = false
      ∧ (scale d {} old (some new)).1.map (·.spec) = [2, 4] ∧ (scale d { ok := fun s => s.name != "b" } old (some new)).1.map (·.spec) = [2, 2] := by decide +kernel

/-- a deployment of three machines -/
def exDep : Dep := { replicas := 3, strategy := .recreate, maxSurge := none, maxUnavailable := none }
/-- two old sets with sizes, one of which cannot be written -/
def exOld : View := ⟨[{ name := "a", spec := 2 }, { name := "b", spec := 1 }], none, fun _ => 0, fun _ => 0⟩
/-- nothing old is left -/
def exGone : View := ⟨[{ name := "a", spec := 0 }], some { name := "c", spec := 0 }, fun _ => 0, fun _ => 0⟩

/-- the second set cannot be scaled down: the first one is, and the run reports an error -/
example : rolloutError exDep { scaleEnv := { ok := fun s => s.name != "b" } } {} exOld = true
    ∧ (rolloutRecreate exDep { scaleEnv := { ok := fun s => s.name != "b" } } exOld).1.map (·.spec) = [0, 1] := by decide +kernel
/-- all is scaled down, without an error -/
example : rolloutError exDep {} {} exOld = false ∧ (rolloutRecreate exDep {} exOld).1.map (·.spec) = [0, 0] := by decide +kernel
/-- the set of the current template gets its size -/
example : rolloutError exDep {} {} exGone = false ∧ (rolloutRecreate exDep {} exGone).2.map (·.spec) = some 3 := by decide +kernel
/-- a failed clean-up is reported only when the rollout is complete -/
example : rolloutError exDep {} { cleanOk := false } exGone = false ∧ rolloutError exDep {} { complete := true, cleanOk := false } exGone = true := by decide +kernel

end MCM.Recreate
