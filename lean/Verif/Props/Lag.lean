import Verif.Model.Lag
import Verif.Props.MachineSet
import Mathlib.Data.List.Perm.Subperm
/-!
C106: a machine set has too many or too few machines only by as much as its cache is behind.
-/
namespace MCM.Lag
open MCM MCM.MachineSet

/-! ## Specification -/

/-- machines in service: not failed, not terminating, not marked for deletion -/
noncomputable def live (l : List Machine) : Nat := specLiveCount l

/-- number of machines in service that the cache does not show as such -/
def unseen (cache store : List Machine) : Nat := ((store.filter isLive).filter fun m => !(cache.filter isLive).any fun c => c.name == m.name).length

/-- of those, the ones that the cache shows as failed or marked for deletion -/
def revived (cache store : List Machine) : Nat := ((store.filter isLive).filter fun m => (cache.filter isStale).any fun c => c.name == m.name).length

/-! ## Counting -/

theorem store_push (s : S) (w : List Machine) : ({ s with later := s.later ++ [w] } : S).store = w := by
  unfold S.store
  simp

theorem length_le_of_names {a b : List Machine} (hn : (a.map Machine.name).Nodup) (h : ∀ m ∈ a, ∃ c ∈ b, c.name = m.name) : a.length ≤ b.length := by
  have hs : a.map Machine.name ⊆ b.map Machine.name := by
    intro x hx
    obtain ⟨m, hm, rfl⟩ := List.mem_map.1 hx
    obtain ⟨c, hc, he⟩ := h m hm
    exact List.mem_map.2 ⟨c, hc, he⟩
  have := (List.subperm_of_subset hn hs).length_le
  simpa using this

theorem nodup_filter {l : List Machine} (h : (l.map Machine.name).Nodup) (p : Machine → Bool) : ((l.filter p).map Machine.name).Nodup :=
  h.sublist (List.filter_sublist.map _)

theorem filter_split (l : List Machine) (p : Machine → Bool) : l.length = (l.filter p).length + (l.filter fun m => !p m).length := by
  induction l with
  | nil => rfl
  | cons a l ih => cases h : p a <;> simp [h, ih] <;> omega

/-- what is in service: what the cache shows and what it does not -/
theorem live_le (cache store : List Machine) (hn : (store.map Machine.name).Nodup) : live store ≤ live cache + unseen cache store := by
  unfold live unseen
  rw [specLiveCount_eq, specLiveCount_eq]
  rw [filter_split (store.filter isLive) fun m => (cache.filter isLive).any fun c => c.name == m.name]
  have : ((store.filter isLive).filter fun m => (cache.filter isLive).any fun c => c.name == m.name).length ≤ (cache.filter isLive).length := by
    refine length_le_of_names (nodup_filter (nodup_filter hn _) _) fun m hm => ?_
    obtain ⟨c, hc, he⟩ := List.any_eq_true.1 (List.mem_filter.1 hm).2
    exact ⟨c, hc, by simpa using he⟩
  omega

theorem filter_cons_le (p : Machine → Bool) (x : Machine) (l : List Machine) : ((x :: l).filter p).length ≤ (l.filter p).length + 1 := by
  rw [List.filter_cons]
  split <;> simp

theorem filter_cons_ge (p : Machine → Bool) (x : Machine) (l : List Machine) : (l.filter p).length ≤ ((x :: l).filter p).length := by
  rw [List.filter_cons]
  split <;> simp

theorem live_strike (o : TermOutcome) (m : Machine) (h : isLive (strike o m) = true) : isLive m = true := by
  rcases m with ⟨n, an, ph, c, d⟩
  rcases o with ⟨d1, d2⟩
  cases d2 <;> simp_all [strike, isLive, isMachineActive, isStale, isMachineFailed, isMachineTriggeredForDeletion]

theorem live_after_le (t : String → TermOutcome) (o : Outcome) (new store : List Machine) :
    ((after t o new store).filter isLive).length ≤ (store.filter isLive).length + new.length := by
  unfold after
  rw [List.filter_append, List.length_append]
  have h1 : ((store.map fun m => if m.name ∈ struck o then strike (t m.name) m else m).filter isLive).length ≤ (store.filter isLive).length := by
    induction store with
    | nil => simp
    | cons a l ih =>
      rw [List.map_cons]
      by_cases hl : isLive a = true
      · rw [List.filter_cons_of_pos hl, List.length_cons]
        exact Nat.le_trans (filter_cons_le _ _ _) (by omega)
      · rw [List.filter_cons_of_neg hl, List.filter_cons_of_neg]
        · exact ih
        · intro h
          split at h
          · exact hl (live_strike _ _ h)
          · exact hl h
  have h2 := List.length_filter_le isLive new
  omega

theorem live_after_ge (t : String → TermOutcome) (o : Outcome) (new store : List Machine) :
    (store.filter isLive).length ≤ ((after t o new store).filter isLive).length + ((store.filter isLive).filter fun m => decide (m.name ∈ struck o)).length := by
  unfold after
  rw [List.filter_append, List.length_append]
  have h1 : (store.filter isLive).length ≤ ((store.map fun m => if m.name ∈ struck o then strike (t m.name) m else m).filter isLive).length
      + ((store.filter isLive).filter fun m => decide (m.name ∈ struck o)).length := by
    induction store with
    | nil => simp
    | cons a l ih =>
      rw [List.map_cons]
      by_cases hl : isLive a = true
      · rw [List.filter_cons_of_pos hl]
        by_cases hk : a.name ∈ struck o
        · rw [List.filter_cons_of_pos (p := fun m : Machine => decide (m.name ∈ struck o)) (by simpa using hk)]
          have := filter_cons_ge isLive (if a.name ∈ struck o then strike (t a.name) a else a)
            (l.map fun m => if m.name ∈ struck o then strike (t m.name) m else m)
          simp only [List.length_cons]
          omega
        · rw [if_neg hk, List.filter_cons_of_pos hl, List.filter_cons_of_neg (by simpa using hk)]
          simp only [List.length_cons]; omega
      · rw [List.filter_cons_of_neg hl]
        have := filter_cons_ge isLive (if a.name ∈ struck o then strike (t a.name) a else a)
          (l.map fun m => if m.name ∈ struck o then strike (t m.name) m else m)
        omega
  omega

/-! ## One run -/

/-- **C106**: whatever the cache shows and whatever calls fail, a run does not raise the number of machines in service above the wanted number by more than the number of
machines in service that the cache does not show. -/
theorem C106_excess_is_what_is_unseen (srt : List Machine → List Machine) (createOut : Nat → CreateOutcome) (t : String → TermOutcome) (ms : MSet)
    (cache store new : List Machine) (hs : ∀ l, (srt l).Perm l) (hn : (store.map Machine.name).Nodup)
    (hnew : new.length = landedCount createOut (manageReplicas srt createOut cache ms).issued) :
    live (after t (manageReplicas srt createOut cache ms) new store) ≤ max (live store) (ms.replicas + unseen cache store) := by
  have h1 := live_after_le t (manageReplicas srt createOut cache ms) new store
  have h2 := (C02_reconcile_bounds srt createOut hs cache ms).1
  have h3 := live_le cache store hn
  have h4 : new.length ≤ (manageReplicas srt createOut cache ms).issued := by
    rw [hnew]
    unfold landedCount
    exact Nat.le_trans (List.length_filter_le _ _) (by simp)
  unfold live at *
  rw [specLiveCount_eq (after _ _ _ _), specLiveCount_eq store] at *
  omega

/-- **C106**: nor does it lower the number of machines in service below the wanted number by more than the number of machines that the cache shows as in service
although they are not, apart from machines that the cache shows as failed or marked. -/
theorem C106_deficit_is_what_is_outdated (srt : List Machine → List Machine) (createOut : Nat → CreateOutcome) (t : String → TermOutcome) (ms : MSet)
    (cache store new : List Machine) (hs : ∀ l, (srt l).Perm l) (hn : (store.map Machine.name).Nodup) (hc : (cache.map Machine.name).Nodup) :
    min (live store) (ms.replicas - unseen store cache) ≤ live (after t (manageReplicas srt createOut cache ms) new store) + revived cache store := by
  have h1 := live_after_ge t (manageReplicas srt createOut cache ms) new store
  have h2 := (C02_reconcile_bounds srt createOut hs cache ms).2.1
  have h3 := live_le store cache hc
  have h4 : ((store.filter isLive).filter fun m => decide (m.name ∈ struck (manageReplicas srt createOut cache ms))).length
      ≤ revived cache store + (manageReplicas srt createOut cache ms).victims.length := by
    rw [filter_split ((store.filter isLive).filter _) fun m => (cache.filter isStale).any fun c => c.name == m.name]
    have ha : (((store.filter isLive).filter fun m => decide (m.name ∈ struck (manageReplicas srt createOut cache ms))).filter
        fun m => (cache.filter isStale).any fun c => c.name == m.name).length ≤ revived cache store := by
      unfold revived
      rw [List.filter_filter, ← List.countP_eq_length_filter, ← List.countP_eq_length_filter]
      apply List.countP_mono_left
      intro m _ h
      simp only [Bool.and_eq_true] at h
      exact h.1
    have hb : (((store.filter isLive).filter fun m => decide (m.name ∈ struck (manageReplicas srt createOut cache ms))).filter
        fun m => !(cache.filter isStale).any fun c => c.name == m.name).length ≤ (manageReplicas srt createOut cache ms).victims.length := by
      refine length_le_of_names (nodup_filter (nodup_filter (nodup_filter hn _) _) _) fun m hm => ?_
      obtain ⟨hm, hno⟩ := List.mem_filter.1 hm
      have hin := (List.mem_filter.1 hm).2
      have hin : m.name ∈ struck (manageReplicas srt createOut cache ms) := by simpa using hin
      unfold struck at hin
      obtain ⟨c, hcm, he⟩ := List.mem_map.1 hin
      have hcm := (List.mem_filter.1 hcm).1
      rcases List.mem_append.1 hcm with hst | hv
      · exfalso
        rw [staleTerminated_eq] at hst
        have : ((cache.filter isStale).any fun c => c.name == m.name) = true := List.any_eq_true.2 ⟨c, hst, by simpa using he⟩
        rw [this] at hno
        exact (nomatch hno)
      · exact ⟨c, hv, he⟩
    omega
  unfold live at *
  rw [specLiveCount_eq (after _ _ _ _), specLiveCount_eq store] at *
  omega

/-! ## All executions -/

/-- every machine in service is in service for the cache -/
def Shown (s : S) : Prop := ∀ m ∈ s.store, SpecLive m → ∃ c ∈ s.cache, c.name = m.name ∧ SpecLive c

/-- others bring no machine into service, nor two machines of one name -/
def Quiet (w w' : List Machine) : Prop := live w' ≤ live w ∧ (w'.map Machine.name).Nodup

theorem unseen_zero {s : S} (h : Shown s) : unseen s.cache s.store = 0 := by
  unfold unseen
  rw [List.length_eq_zero_iff, List.filter_eq_nil_iff]
  intro m hm hx
  obtain ⟨hm, hl⟩ := List.mem_filter.1 hm
  obtain ⟨c, hc, he, hcl⟩ := h m hm ((isLive_iff m).1 hl)
  have : ((s.cache.filter isLive).any fun c => c.name == m.name) = true :=
    List.any_eq_true.2 ⟨c, List.mem_filter.2 ⟨hc, (isLive_iff c).2 hcl⟩, by simpa using he⟩
  rw [this] at hx
  exact (nomatch hx)

theorem names_strike (t : String → TermOutcome) (o : Outcome) (store : List Machine) :
    (store.map fun m => if m.name ∈ struck o then strike (t m.name) m else m).map Machine.name = store.map Machine.name := by
  rw [List.map_map]
  apply List.map_congr_left
  intro m _
  dsimp only [Function.comp]
  split <;> rfl

theorem deliver_store (s : S) (w : List Machine) (rest : List (List Machine)) (h : s.later = w :: rest) :
    ({ s with cache := w, later := rest } : S).store = s.store := by
  unfold S.store
  rw [h]
  cases rest with
  | nil => rfl
  | cons a l =>
    rw [List.getLast?_cons_cons]
    cases hx : (a :: l).getLast? with
    | none => simp at hx
    | some y => rfl

/-- **C106** (partial: as long as runs begin only when the cache shows the machines in service): over any execution, whatever calls fail and whatever others
do short of bringing machines into service, the number of machines in service never exceeds the wanted number, or the number at the start if that was greater. -/
theorem C106_never_too_many_partial (s t : S) (hn : (s.store.map Machine.name).Nodup) (h : Steps Shown Quiet s t) :
    live t.store ≤ max (live s.store) s.ms.replicas ∧ t.ms = s.ms ∧ (t.store.map Machine.name).Nodup := by
  induction h with
  | refl => exact ⟨by omega, rfl, hn⟩
  | @tail u v h hs ih =>
    obtain ⟨h1, h2, h3⟩ := ih
    cases hs with
    | run srt createOut tt new hm hsort hnew hnod hlive =>
      rw [store_push]
      have := C106_excess_is_what_is_unseen srt createOut tt u.ms u.cache u.store new (fun l => (hsort l).perm) h3 hnew
      rw [unseen_zero hm, h2] at this
      refine ⟨by rw [h2]; omega, h2, ?_⟩
      unfold after
      rw [List.map_append, names_strike, ← List.map_append]
      exact hnod
    | other w hw =>
      rw [store_push]
      exact ⟨by have := hw.1; omega, h2, hw.2⟩
    | deliver w rest hl =>
      rw [deliver_store u w rest hl]
      exact ⟨h1, h2, h3⟩

/-- what the cache shows as in service is so, and what it shows as failed or marked is not in service -/
def UpToDate (s : S) : Prop :=
  (∀ c ∈ s.cache, SpecLive c → ∃ m ∈ s.store, m.name = c.name ∧ SpecLive m)
  ∧ ∀ c ∈ s.cache, SpecStale c → ∀ m ∈ s.store, SpecLive m → m.name ≠ c.name

/-- others take no machine out of service -/
def Gentle (w w' : List Machine) : Prop := live w ≤ live w' ∧ (w'.map Machine.name).Nodup

theorem outdated_zero {s : S} (h : UpToDate s) : unseen s.store s.cache = 0 := by
  unfold unseen
  rw [List.length_eq_zero_iff, List.filter_eq_nil_iff]
  intro m hm hx
  obtain ⟨hm, hl⟩ := List.mem_filter.1 hm
  obtain ⟨c, hc, he, hcl⟩ := h.1 m hm ((isLive_iff m).1 hl)
  have : ((s.store.filter isLive).any fun c => c.name == m.name) = true :=
    List.any_eq_true.2 ⟨c, List.mem_filter.2 ⟨hc, (isLive_iff c).2 hcl⟩, by simpa using he⟩
  rw [this] at hx
  exact (nomatch hx)

theorem revived_zero {s : S} (h : UpToDate s) : revived s.cache s.store = 0 := by
  unfold revived
  rw [List.length_eq_zero_iff, List.filter_eq_nil_iff]
  intro m hm hx
  obtain ⟨hm, hl⟩ := List.mem_filter.1 hm
  obtain ⟨c, hc, he⟩ := List.any_eq_true.1 hx
  obtain ⟨hc, hs⟩ := List.mem_filter.1 hc
  exact h.2 c hc ((isStale_iff c).1 hs) m hm ((isLive_iff m).1 hl) (by simpa using (Eq.symm (by simpa using he)))

theorem store_names {s : S} (hc : (s.cache.map Machine.name).Nodup) (hl : ∀ w ∈ s.later, (w.map Machine.name).Nodup) : (s.store.map Machine.name).Nodup := by
  unfold S.store
  cases h : s.later.getLast? with
  | none => exact hc
  | some w => exact hl w (List.mem_of_getLast? h)

/-- **C106** (partial: as long as runs begin only when the cache shows no machine wrongly as in service, or as failed or marked): over any execution, whatever calls fail and
whatever others do short of taking machines out of service, the number of machines in service never falls below the wanted number, or the number at the start if that was
smaller. -/
theorem C106_never_too_few_partial (s t : S) (hc : (s.cache.map Machine.name).Nodup) (hl : ∀ w ∈ s.later, (w.map Machine.name).Nodup) (h : Steps UpToDate Gentle s t) :
    min (live s.store) s.ms.replicas ≤ live t.store ∧ t.ms = s.ms ∧ (t.cache.map Machine.name).Nodup ∧ ∀ w ∈ t.later, (w.map Machine.name).Nodup := by
  induction h with
  | refl => exact ⟨by omega, rfl, hc, hl⟩
  | @tail u v h hs ih =>
    obtain ⟨h1, h2, h3, h4⟩ := ih
    cases hs with
    | run srt createOut tt new hm hsort hnew hnod hlive =>
      rw [store_push]
      have := C106_deficit_is_what_is_outdated srt createOut tt u.ms u.cache u.store new (fun l => (hsort l).perm) (store_names h3 h4) h3
      rw [outdated_zero hm, revived_zero hm, h2] at this
      refine ⟨by rw [h2]; omega, h2, h3, ?_⟩
      intro w hw
      rcases List.mem_append.1 hw with hw | hw
      · exact h4 w hw
      · rw [List.mem_singleton.1 hw]
        unfold after
        rw [List.map_append, names_strike, ← List.map_append]
        exact hnod
    | other w hw =>
      rw [store_push]
      refine ⟨by have := hw.1; omega, h2, h3, ?_⟩
      intro w' hw'
      rcases List.mem_append.1 hw' with hx | hx
      · exact h4 w' hx
      · rw [List.mem_singleton.1 hx]; exact hw.2
    | deliver w rest hr =>
      rw [deliver_store u w rest hr]
      refine ⟨h1, h2, h4 w (by rw [hr]; exact List.mem_cons_self), fun w' hw' => h4 w' (by rw [hr]; exact List.mem_cons_of_mem _ hw')⟩

/-! ## Without that -/

/-- the names "", "m", "mm", … -/
def nth (n : Nat) : Machine := { name := String.ofList (List.replicate n 'm') }

theorem nth_inj {a b : Nat} (h : (nth a).name = (nth b).name) : a = b := by
  have : (List.replicate a 'm') = List.replicate b 'm' := by
    unfold nth at h
    exact String.ofList_injective h
  simpa using congrArg List.length this

/-- `n` runs on the empty cache, one after the other -/
def runsOn (n : Nat) : S := { ms := { replicas := 1 }, cache := [], later := (List.range n).map fun i => (List.range (i + 1)).map nth }

theorem runsOn_store (n : Nat) : (runsOn n).store = (List.range n).map nth := by
  unfold S.store runsOn
  dsimp only
  cases n with
  | zero => rfl
  | succ n => simp [List.range_succ]

/-- **C106 is false of the code**: while the cache does not show the machines that were created, each run creates them once more; for every number there is an execution without any
failing call, and without anybody else, that leads to so many machines of a set that wants one. -/
theorem C106_unbounded_excess_false : ∀ n, ∃ s : S, Steps (fun _ => True) (fun _ _ => False) { ms := { replicas := 1 }, cache := [] } s
    ∧ s.ms.replicas = 1 ∧ live s.store = n := by
  intro n
  refine ⟨runsOn n, ?_, rfl, ?_⟩
  · induction n with
    | zero => exact .refl
    | succ n ih =>
      refine .tail ih ?_
      have hst := Step.run (may := fun _ => True) (foreign := fun _ _ => False) (s := runsOn n) (fun l => l.mergeSort (fun a b => !less b a)) (fun _ => ⟨.none, true⟩)
        (fun _ => ⟨true, true⟩) [nth n] trivial C03_sort_exists (by
          show 1 = landedCount (fun _ => ⟨.none, true⟩) (manageReplicas (fun l => l.mergeSort (fun a b => !less b a)) (fun _ => ⟨.none, true⟩) [] { replicas := 1 }).issued
          decide +kernel) (by
          rw [runsOn_store]
          have : (List.range n).map nth ++ [nth n] = (List.range (n + 1)).map nth := by rw [List.range_succ]; simp
          rw [this, List.map_map]
          exact List.pairwise_map.2 (List.nodup_range.imp fun h e => h (nth_inj e))) (by
          intro m hm
          rw [List.mem_singleton.1 hm]
          exact ⟨rfl, rfl⟩)
      have ho : (manageReplicas (fun l => l.mergeSort (fun a b => !less b a)) (fun _ => ⟨.none, true⟩) (runsOn n).cache (runsOn n).ms)
          = (manageReplicas (fun l => l.mergeSort (fun a b => !less b a)) (fun _ => ⟨.none, true⟩) [] { replicas := 1 }) := rfl
      have hk : struck (manageReplicas (fun l => l.mergeSort (fun a b => !less b a)) (fun _ => ⟨.none, true⟩) [] { replicas := 1 }) = [] := by decide +kernel
      rw [ho] at hst
      unfold after at hst
      rw [hk, runsOn_store] at hst
      have he : (runsOn (n + 1)) = { runsOn n with later := (runsOn n).later ++
          [((List.range n).map nth).map (fun m => if m.name ∈ ([] : List String) then strike ⟨true, true⟩ m else m) ++ [nth n]] } := by
        unfold runsOn
        dsimp only
        rw [List.range_succ]
        simp [List.range_succ]
      rw [he]
      exact hst
  · rw [runsOn_store]
    unfold live
    rw [specLiveCount_eq, List.filter_eq_self.2]
    · simp
    · intro m hm
      obtain ⟨i, _, rfl⟩ := List.mem_map.1 hm
      rfl

/-- the excess in the middle of it: three machines of a set that wants one, of which the cache shows none -/
example : (runsOn 3).ms.replicas = 1 ∧ unseen (runsOn 3).cache (runsOn 3).store = 3 := by decide +kernel

/-- the hypothesis of the partial statement is met by a cache that is behind by a creation whose machine failed since -/
example : Shown { ms := { replicas := 1 }, cache := [], later := [[nth 1], [{ nth 1 with phase := .failed }]] } := by
  intro m hm hl
  have : m = { nth 1 with phase := .failed } := by simpa [S.store] using hm
  subst this
  exact absurd ((isLive_iff _).2 hl) (by decide +kernel)

/-! ### Too few -/

def mk (n : String) (p : Phase) (c : Int) : Machine := { name := n, phase := p, creation := c }
def three : List Machine := [mk "a" .running 1, mk "b" .running 2, mk "c" .running 3]
/-- the watch has not delivered that `b` became Unknown, nor that `a` is being deleted -/
def w1 : List Machine := [mk "a" .running 1, mk "b" .unknown 2, mk "c" .running 3]
def w2 : List Machine := [{ mk "a" .terminating 1 with deleting := true }, mk "b" .unknown 2, mk "c" .running 3]
def w3 : List Machine := [{ mk "a" .terminating 1 with deleting := true }, { mk "b" .terminating 2 with deleting := true }, mk "c" .running 3]

/-- a sort, spelled out for the two lists of the execution -/
def srt (l : List Machine) : List Machine :=
  if l = three then three else if l = w1 then [mk "b" .unknown 2, mk "a" .running 1, mk "c" .running 3] else l.mergeSort (fun a b => !less b a)

theorem srt_sorts : ∀ l, IsSortOf less (srt l) l := by
  intro l
  unfold srt
  split
  · next h => subst h; exact ⟨List.Perm.refl _, by decide +kernel⟩
  · split
    · next h => subst h; exact ⟨List.Perm.swap _ _ _, by decide +kernel⟩
    · exact C03_sort_exists l

/-- others change nothing but phases, and keep machines in service -/
def PhasesOnly (w w' : List Machine) : Prop := w'.map Machine.name = w.map Machine.name ∧ live w' = live w

/-- **C106 is false of the code**, the other way round: two runs delete two machines although there was only one too many, because the second does not see what the first
did. No call fails, and no machine failed. -/
theorem C106_too_few_false : ∃ s : S, Steps (fun _ => True) PhasesOnly { ms := { replicas := 2 }, cache := three } s
    ∧ s.ms.replicas = 2 ∧ live s.store = 1 := by
  refine ⟨{ ms := { replicas := 2 }, cache := w1, later := [w2, w3] }, ?_, rfl, by unfold live; rw [specLiveCount_eq]; decide +kernel⟩
  have h1 : Step (fun _ => True) PhasesOnly { ms := { replicas := 2 }, cache := three } { ms := { replicas := 2 }, cache := three, later := [w1] } :=
    Step.other w1 ⟨rfl, by unfold live; rw [specLiveCount_eq, specLiveCount_eq]; decide +kernel⟩
  have h2 := Step.run (may := fun _ => True) (foreign := PhasesOnly) (s := { ms := { replicas := 2 }, cache := three, later := [w1] })
    srt (fun _ => ⟨.none, true⟩) (fun _ => ⟨true, true⟩) [] trivial srt_sorts (by decide +kernel) (by decide +kernel)
    (fun m hm => (nomatch hm))
  have e2 : after (fun _ => ⟨true, true⟩) (manageReplicas srt (fun _ => ⟨.none, true⟩) three { replicas := 2 }) []
      (S.store { ms := { replicas := 2 }, cache := three, later := [w1] }) = w2 := by decide +kernel
  rw [e2] at h2
  have h3 : Step (fun _ => True) PhasesOnly { ms := { replicas := 2 }, cache := three, later := [w1, w2] } { ms := { replicas := 2 }, cache := w1, later := [w2] } :=
    Step.deliver (s := { ms := { replicas := 2 }, cache := three, later := [w1, w2] }) w1 [w2] rfl
  have h4 := Step.run (may := fun _ => True) (foreign := PhasesOnly) (s := { ms := { replicas := 2 }, cache := w1, later := [w2] })
    srt (fun _ => ⟨.none, true⟩) (fun _ => ⟨true, true⟩) [] trivial srt_sorts (by decide +kernel) (by decide +kernel)
    (fun m hm => (nomatch hm))
  have e4 : after (fun _ => ⟨true, true⟩) (manageReplicas srt (fun _ => ⟨.none, true⟩) w1 { replicas := 2 }) []
      (S.store { ms := { replicas := 2 }, cache := w1, later := [w2] }) = w3 := by decide +kernel
  rw [e4] at h4
  exact .tail (.tail (.tail (.tail .refl h1) h2) h3) h4

/-- in that execution the second run begins with a cache that shows `a` as in service although it is not -/
example : unseen w2 w1 = 1 ∧ revived w1 w2 = 0 := by decide +kernel

/-- a moment at which the hypothesis of `C106_never_too_few_partial` is met although the cache is behind: `nth 2` has been created since -/
example : UpToDate { ms := { replicas := 2 }, cache := [nth 1], later := [[nth 1, nth 2]] } := by
  constructor
  · intro c hc hl
    refine ⟨c, ?_, rfl, hl⟩
    rw [List.mem_singleton.1 hc]
    simp [S.store]
  · intro c hc hs
    rw [List.mem_singleton.1 hc] at hs
    exact absurd ((isStale_iff _).2 hs) (by decide +kernel)

end MCM.Lag
