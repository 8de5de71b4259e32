import Verif.Model.ScaleIn
import Verif.Props.Trigger
import Verif.Props.MachineSet
import Mathlib.Data.List.Perm.Subperm
/-!
C129: scaling in by naming machines deletes the named machines and no others.
-/
namespace MCM.ScaleIn
open MCM MCM.MachineSet MCM.Trigger

/-! ## Specification -/

/-- machines in service that are not named -/
noncomputable def others (N : List String) (l : List Machine) : List Machine := open Classical in l.filter fun m => decide (m.name ∉ N ∧ SpecLive m)

/-- The request: the machines named `N` are in service, there are no more machines in service than the set has asked for so far, the deployment asks for as many fewer as there
are names, and the annotation holds the names. The controllers have seen everything up to now. -/
structure Request (N : List String) (s : S) : Prop where
  nodup : (s.store.map Machine.name).Nodup
  distinct : N.Nodup
  proper : ∀ n ∈ N, IsName n.toList
  named : ∀ n ∈ N, ∃ m ∈ s.store, m.name = n ∧ SpecLive m ∧ m.deleting = false
  count : (others [] s.store).length ≤ s.size
  want : s.want + N.length = s.size
  value : getNames s.value = N.map String.toList
  seen : s.cache = s.store
  idle : s.work = none

/-- The machine set controller sees all machines as they are, and does not run between the first mark and the scaling of the set. -/
def Apart (N : List String) (s : S) : Prop :=
  s.cache = s.store ∧ (s.size = s.want ∨ ∀ m ∈ s.store, m.name ∈ N → ¬ SpecMarked m)

/-- Named machines do not fail before the set has its new size. -/
def Sound (N : List String) (s : S) (n : String) : Prop := n ∈ N → s.size = s.want

/-! ## Proofs -/

/-- neither failed nor terminating nor deleted -/
def Well (m : Machine) : Prop := m.deleting = false ∧ m.phase ≠ .failed ∧ m.phase ≠ .terminating

/-- the mark is there -/
def Marked1 (m : Machine) : Prop := m.annotations.get machinePriorityKey = "1"

/-- number of machines in service that are not named -/
def cnt (N : List String) (l : List Machine) : Nat := l.countP fun m => decide (m.name ∉ N) && isLive m

theorem others_length (N : List String) (l : List Machine) : (others N l).length = cnt N l := by
  unfold others cnt
  rw [List.countP_eq_length_filter]
  congr 2
  funext m
  rw [Bool.eq_iff_iff]
  simp [← isLive_iff]

theorem cnt_map_le (N : List String) (f : Machine → Machine) (hn : ∀ m, (f m).name = m.name) (l : List Machine)
    (hl : ∀ m ∈ l, isLive (f m) = true → isLive m = true) : cnt N (l.map f) ≤ cnt N l := by
  unfold cnt
  rw [List.countP_map]
  refine List.countP_mono_left fun m hm h => ?_
  simp only [Function.comp, hn, Bool.and_eq_true] at h ⊢
  exact ⟨h.1, hl m hm h.2⟩

theorem cnt_split (N : List String) (l : List Machine) : (l.filter isLive).length = cnt N l + l.countP fun m => decide (m.name ∈ N) && isLive m := by
  unfold cnt
  rw [← List.countP_eq_length_filter]
  induction l with
  | nil => rfl
  | cons m l ih =>
    simp only [List.countP_cons, ih]
    by_cases h1 : m.name ∈ N <;> by_cases h2 : isLive m = true <;> simp [h1, h2] <;> omega

theorem inj_of_nodup {l : List Machine} (h : (l.map Machine.name).Nodup) {a b : Machine} (ha : a ∈ l) (hb : b ∈ l) (he : a.name = b.name) : a = b := by
  induction l with
  | nil => cases ha
  | cons x l ih =>
    rw [List.map_cons, List.nodup_cons] at h
    rcases List.mem_cons.1 ha with rfl | ha' <;> rcases List.mem_cons.1 hb with rfl | hb'
    · rfl
    · exact absurd (List.mem_map.2 ⟨b, hb', he.symm⟩) h.1
    · exact absurd (List.mem_map.2 ⟨a, ha', he⟩) h.1
    · exact ih h.2 ha' hb'

/-- all named machines in service: as many as names -/
theorem named_count (N : List String) (hN : N.Nodup) (l : List Machine) (hl : (l.map Machine.name).Nodup)
    (h : ∀ n ∈ N, ∃ m ∈ l, m.name = n ∧ isLive m = true) : (l.countP fun m => decide (m.name ∈ N) && isLive m) = N.length := by
  rw [List.countP_eq_length_filter, ← List.length_map (f := Machine.name)]
  refine List.Perm.length_eq ((List.perm_ext_iff_of_nodup (hl.sublist (List.filter_sublist.map _)) hN).2 fun n => ?_)
  rw [List.mem_map]
  constructor
  · rintro ⟨m, hm, rfl⟩
    have := (List.mem_filter.1 hm).2
    simp only [Bool.and_eq_true, decide_eq_true_eq] at this
    exact this.1
  · intro hn
    obtain ⟨m, hm, rfl, hl⟩ := h n hn
    exact ⟨m, List.mem_filter.2 ⟨hm, by simp [hn, hl]⟩, rfl⟩

theorem named_none (N : List String) (l : List Machine) (h : ∀ m ∈ l, m.name ∈ N → isLive m = false) :
    (l.countP fun m => decide (m.name ∈ N) && isLive m) = 0 := by
  rw [List.countP_eq_zero]
  intro m hm
  by_cases hn : m.name ∈ N
  · simp [h m hm hn]
  · simp [hn]

/-- requests that concern named machines only -/
def Own (N : List String) : Action → Prop
  | .setPriority x => ∃ n ∈ N, x = n.toList
  | .setAnnotation v => ∀ x ∈ getNames v, ∃ n ∈ N, x = n.toList

/-- the set still has its former size -/
structure Before (N : List String) (i s : S) : Prop where
  size : s.size = i.size
  value : getNames s.value = N.map String.toList
  inStore : ∀ n ∈ N, ∃ m ∈ s.store, m.name = n ∧ Well m
  inCache : ∀ n ∈ N, ∃ m ∈ s.cache, m.name = n ∧ Well m
  seen : ∀ m ∈ s.cache, m.name ∈ N → Marked1 m → ∃ m' ∈ s.store, m'.name = m.name ∧ Marked1 m'
  work : ∀ acts b, s.work = some (acts, b) → (∀ a ∈ acts, ∃ n ∈ N, a = .setPriority n.toList) ∧
    (b = true → ∀ n ∈ N, (∃ m ∈ s.store, m.name = n ∧ Marked1 m) ∨ .setPriority n.toList ∈ acts)

/-- the set has its new size -/
structure After (N : List String) (s : S) : Prop where
  size : s.size = s.want
  marked : ∀ m ∈ s.store, m.name ∈ N → Marked1 m

structure Inv (N : List String) (i s : S) : Prop where
  names : (s.store.map Machine.name).Nodup
  cnames : (s.cache.map Machine.name).Nodup
  sum : s.want + N.length = i.size
  room : cnt N s.store ≤ s.want
  value : ∀ x ∈ getNames s.value, ∃ n ∈ N, x = n.toList
  acts : ∀ acts b, s.work = some (acts, b) → ∀ a ∈ acts, Own N a
  old : ∀ m ∈ s.store, m.name ∉ N → isMachineTriggeredForDeletion m = true → ∃ m0 ∈ i.store, m0.name = m.name ∧ isMachineTriggeredForDeletion m0 = true
  stage : Before N i s ∨ After N s

theorem live_eq (m : Machine) : isLive m = true ↔ m.phase ≠ .failed ∧ m.phase ≠ .terminating ∧ isMachineTriggeredForDeletion m = false := by
  unfold isLive isStale isMachineActive isMachineFailed
  cases isMachineTriggeredForDeletion m <;> cases m.phase <;> simp

theorem Inv.withStore {N : List String} {i s : S} (h : Inv N i s) (st : List Machine) (h1 : (st.map Machine.name).Nodup) (h2 : cnt N st ≤ s.want)
    (h3 : ∀ m ∈ st, m.name ∉ N → isMachineTriggeredForDeletion m = true → ∃ m0 ∈ i.store, m0.name = m.name ∧ isMachineTriggeredForDeletion m0 = true)
    (h4 : Before N i s → (∀ n ∈ N, ∃ m ∈ st, m.name = n ∧ Well m) ∧ ∀ m ∈ s.store, m.name ∈ N → Marked1 m → ∃ m' ∈ st, m'.name = m.name ∧ Marked1 m')
    (h5 : After N s → ∀ m ∈ st, m.name ∈ N → Marked1 m) : Inv N i { s with store := st } := by
  refine ⟨h1, h.cnames, h.sum, h2, h.value, h.acts, h3, ?_⟩
  rcases h.stage with hb | ha
  · left
    obtain ⟨h41, h42⟩ := h4 hb
    refine ⟨hb.size, hb.value, h41, hb.inCache, ?_, ?_⟩
    · intro m hm hn hk
      obtain ⟨m1, hm1, he, hk1⟩ := hb.seen m hm hn hk
      obtain ⟨m2, hm2, he2, hk2⟩ := h42 m1 hm1 (he ▸ hn) hk1
      exact ⟨m2, hm2, he2.trans he, hk2⟩
    · intro acts b hw
      obtain ⟨w1, w2⟩ := hb.work acts b hw
      refine ⟨w1, fun hbt n hn => ?_⟩
      rcases w2 hbt n hn with ⟨m, hm, he, hk⟩ | hin
      · obtain ⟨m2, hm2, he2, hk2⟩ := h42 m hm (he ▸ hn) hk
        exact Or.inl ⟨m2, hm2, he2.trans he, hk2⟩
      · exact Or.inr hin
  · exact Or.inr ⟨ha.size, h5 ha⟩

theorem toList_inj {a b : String} (h : a.toList = b.toList) : a = b := by
  have := congrArg String.ofList h
  simpa using this

theorem set_get (m : SMap) (k v : String) : (m.set k v).get k = v := by
  unfold SMap.set SMap.get
  simp

theorem set_get_ne (m : SMap) (k v j : String) (h : j ≠ k) : (m.set k v).get j = m.get j := by
  unfold SMap.set SMap.get
  have hjk : (j == k) = false := by simpa using h
  rw [List.lookup_cons, hjk]
  dsimp only
  congr 1
  induction m with
  | nil => rfl
  | cons e m ih =>
    obtain ⟨a, b⟩ := e
    rw [List.filter_cons]
    by_cases ha : a = k
    · subst ha
      simp only [bne_self_eq_false, Bool.false_eq_true, if_false]
      rw [ih, List.lookup_cons, hjk]
    · have : (a != k) = true := by simpa using ha
      simp only [this, if_true, List.lookup_cons]
      split
      · rfl
      · exact ih

theorem mark_name (x : Str) (m : Machine) : (mark x m).name = m.name := by
  unfold mark; split <;> rfl

theorem mark_phase (x : Str) (m : Machine) : (mark x m).phase = m.phase := by
  unfold mark; split <;> rfl

theorem mark_deleting (x : Str) (m : Machine) : (mark x m).deleting = m.deleting := by
  unfold mark; split <;> rfl

theorem mark_marked (x : Str) (m : Machine) (h : m.name.toList = x ∨ Marked1 m) : Marked1 (mark x m) := by
  unfold mark Marked1
  split
  · exact set_get _ _ _
  · rcases h with h | h
    · contradiction
    · exact h

theorem mark_other (x : Str) (m : Machine) (h : m.name.toList ≠ x) : mark x m = m := if_neg h

theorem mark_trigger (x : Str) (m : Machine) (h : isMachineTriggeredForDeletion m = true) : isMachineTriggeredForDeletion (mark x m) = true := by
  unfold mark
  split
  · unfold isMachineTriggeredForDeletion
    rw [set_get]
    rfl
  · exact h

theorem marked_dead (m : Machine) (h : Marked1 m) : isLive m = false := by
  cases hl : isLive m
  · rfl
  · have := ((live_eq m).1 hl).2.2
    unfold isMachineTriggeredForDeletion at this
    unfold Marked1 at h
    simp [h] at this

theorem map_names (f : Machine → Machine) (hf : ∀ m, (f m).name = m.name) (l : List Machine) : (l.map f).map Machine.name = l.map Machine.name := by
  rw [List.map_map]
  exact List.map_congr_left fun m _ => hf m

/-- changes of the machines one by one -/
theorem Inv.mapStore {N : List String} {i s : S} (h : Inv N i s) (f : Machine → Machine) (hf : ∀ m, (f m).name = m.name)
    (hl : ∀ m ∈ s.store, isLive (f m) = true → isLive m = true)
    (ht : ∀ m ∈ s.store, m.name ∉ N → isMachineTriggeredForDeletion (f m) = true → isMachineTriggeredForDeletion m = true)
    (hk : ∀ m ∈ s.store, Marked1 m → Marked1 (f m))
    (hw : Before N i s → ∀ m ∈ s.store, m.name ∈ N → Well m → Well (f m)) : Inv N i { s with store := s.store.map f } := by
  refine h.withStore _ ?_ ?_ ?_ ?_ ?_
  · rw [map_names f hf]; exact h.names
  · exact Nat.le_trans (cnt_map_le N f hf _ hl) h.room
  · intro m hm hn hm2
    obtain ⟨m1, h1, rfl⟩ := List.mem_map.1 hm
    rw [hf] at hn ⊢
    exact h.old m1 h1 hn (ht m1 h1 hn hm2)
  · intro hb
    constructor
    · intro n hn
      obtain ⟨m, hm, rfl, hwm⟩ := hb.inStore n hn
      exact ⟨f m, List.mem_map_of_mem hm, hf m, hw hb m hm hn hwm⟩
    · intro m hm _ hkm
      exact ⟨f m, List.mem_map_of_mem hm, hf m, hk m hm hkm⟩
  · intro ha m hm hn
    obtain ⟨m1, h1, rfl⟩ := List.mem_map.1 hm
    exact hk m1 h1 (ha.marked m1 h1 (hf m1 ▸ hn))

theorem marked1_trigger (m : Machine) (h : isMachineTriggeredForDeletion m = false) : ¬ Marked1 m := by
  intro hk
  unfold isMachineTriggeredForDeletion at h
  unfold Marked1 at hk
  simp [hk] at h

theorem specMarked_iff (m : Machine) : SpecMarked m ↔ isMachineTriggeredForDeletion m = true := by
  unfold SpecMarked isMachineTriggeredForDeletion machinePriorityKey triggerDeletionKey
  simp only [Bool.or_eq_true, beq_iff_eq]
  rw [get_eq_iff _ _ _ (by decide), get_eq_iff _ _ _ (by decide)]

/-- what a run at a permitted moment does -/
theorem plan_spec {N : List String} {i s : S} (hN : N.Nodup) (h : Inv N i s) (hm : Apart N s) (srt : List Machine → List Machine) (createOut : Nat → CreateOutcome)
    (hs : ∀ l, (srt l).Perm l) :
    (s.plan srt createOut).victims = [] ∧ (s.plan srt createOut).issued ≤ s.want - cnt N s.store := by
  obtain ⟨hc, hap⟩ := hm
  have hb := C02_reconcile_bounds srt createOut hs s.cache { replicas := s.size }
  simp only [specLiveCount_eq, hc, cnt_split N] at hb
  unfold S.plan
  rw [hc]
  obtain ⟨h1, h2, -⟩ := hb
  have hcase : After N s ∨ (Before N i s ∧ ∀ m ∈ s.store, m.name ∈ N → ¬ SpecMarked m) := by
    rcases h.stage with hb | ha
    · rcases hap with he | hno
      · have hsum := h.sum
        have : N = [] := by
          apply List.eq_nil_of_length_eq_zero
          have := hb.size
          omega
        subst this
        exact Or.inl ⟨he, fun m _ hn => by cases hn⟩
      · exact Or.inr ⟨hb, hno⟩
    · exact Or.inl ha
  have hroom := h.room
  rcases hcase with ha | ⟨hb, hno⟩
  · rw [named_none N s.store fun m hm hn => marked_dead m (ha.marked m hm hn)] at h1 h2
    have := ha.size
    refine ⟨List.eq_nil_of_length_eq_zero (by omega), by omega⟩
  · have hcnt := named_count N hN s.store h.names fun n hn => ?_
    · rw [hcnt] at h1 h2
      have := h.sum
      have := hb.size
      refine ⟨List.eq_nil_of_length_eq_zero (by omega), by omega⟩
    · obtain ⟨m, hm, rfl, hw⟩ := hb.inStore n hn
      refine ⟨m, hm, rfl, (live_eq m).2 ⟨hw.2.1, hw.2.2, ?_⟩⟩
      have := hno m hm hn
      rw [specMarked_iff] at this
      simpa using this

theorem strike_live (t : TermOutcome) (m : Machine) (h : isLive (Lag.strike t m) = true) : isLive m = true := by
  rw [live_eq] at h ⊢
  obtain ⟨h1, h2, h3⟩ := h
  unfold Lag.strike at h1 h2
  dsimp only at h1 h2
  split at h2
  · exact absurd rfl h2
  · rename_i hso
    rw [if_neg hso] at h1
    exact ⟨h1, h2, h3⟩

theorem landed_le (createOut : Nat → CreateOutcome) (k : Nat) : landedCount createOut k ≤ k := by
  unfold landedCount
  have := List.length_filter_le (fun i => (createOut i).landed) (List.range k)
  simpa using this

/-- names that a run at a permitted moment acts on -/
theorem struck_spec {N : List String} {i s : S} (hN : N.Nodup) (h : Inv N i s) (hm : Apart N s) (srt : List Machine → List Machine) (createOut : Nat → CreateOutcome)
    (hs : ∀ l, (srt l).Perm l) : ∀ n ∈ Lag.struck (s.plan srt createOut), ∃ m ∈ s.store, m.name = n ∧ isStale m = true ∧ m.deleting = false := by
  intro n hn
  unfold Lag.struck at hn
  rw [(plan_spec hN h hm srt createOut hs).1, List.append_nil] at hn
  unfold S.plan at hn
  rw [staleTerminated_eq, hm.1] at hn
  obtain ⟨m, hm1, rfl⟩ := List.mem_map.1 hn
  obtain ⟨hm2, hd⟩ := List.mem_filter.1 hm1
  obtain ⟨hm3, hst⟩ := List.mem_filter.1 hm2
  exact ⟨m, hm3, rfl, hst, by simpa using hd⟩

theorem Inv.run {N : List String} {i s : S} (hN : N.Nodup) (h : Inv N i s) (hm : Apart N s) (srt : List Machine → List Machine) (createOut : Nat → CreateOutcome)
    (t : String → TermOutcome) (new : List Machine) (hs : ∀ l, (srt l).Perm l) (hlen : new.length = landedCount createOut (s.plan srt createOut).issued)
    (hnd : ((s.store ++ new).map Machine.name).Nodup) (hnew : ∀ m ∈ new, isLive m = true ∧ m.deleting = false ∧ m.name ∉ N) :
    Inv N i { s with store := Lag.after t (s.plan srt createOut) new s.store } := by
  obtain ⟨hv, hi⟩ := plan_spec hN h hm srt createOut hs
  have hstr := struck_spec hN h hm srt createOut hs
  generalize hf : (fun m : Machine => if m.name ∈ Lag.struck (s.plan srt createOut) then Lag.strike (t m.name) m else m) = f
  have hfn : ∀ m, (f m).name = m.name := by
    intro m; subst hf; dsimp only; split <;> rfl
  have hfa : ∀ m, (f m).annotations = m.annotations := by
    intro m; subst hf; dsimp only; split <;> rfl
  have hfl : ∀ m, isLive (f m) = true → isLive m = true := by
    intro m hl; subst hf; dsimp only at hl
    split at hl
    · exact strike_live _ _ hl
    · exact hl
  have hft : ∀ m, isMachineTriggeredForDeletion (f m) = isMachineTriggeredForDeletion m := by
    intro m; unfold isMachineTriggeredForDeletion; rw [hfa]
  have haft : Lag.after t (s.plan srt createOut) new s.store = s.store.map f ++ new := by
    unfold Lag.after; rw [hf]
  rw [haft]
  refine h.withStore _ ?_ ?_ ?_ ?_ ?_
  · rw [List.map_append, map_names f hfn, ← List.map_append]; exact hnd
  · have h1 := cnt_map_le N f hfn s.store fun m _ => hfl m
    have h2 : cnt N new ≤ new.length := List.countP_le_length
    have h3 := landed_le createOut (s.plan srt createOut).issued
    have h4 := h.room
    unfold cnt at h1 h2 h4 hi ⊢
    rw [List.countP_append]
    omega
  · intro m hm' hn htr
    rcases List.mem_append.1 hm' with hmm | hmm
    · obtain ⟨m1, h1, rfl⟩ := List.mem_map.1 hmm
      rw [hft] at htr
      rw [hfn] at hn ⊢
      exact h.old m1 h1 hn htr
    · have := ((live_eq m).1 (hnew m hmm).1).2.2
      rw [htr] at this; cases this
  · intro hb
    constructor
    · intro n hn
      obtain ⟨m, hmm, rfl, hw⟩ := hb.inStore n hn
      have hnot : m.name ∉ Lag.struck (s.plan srt createOut) := by
        intro hin
        obtain ⟨m2, hm2, he, hst, -⟩ := hstr _ hin
        obtain rfl := inj_of_nodup h.names hm2 hmm he
        have hsz : s.size ≠ s.want := by
          have := h.sum; have := hb.size
          have : 0 < N.length := List.length_pos_of_mem hn
          omega
        have hno := hm.2.resolve_left hsz m2 hmm hn
        rw [specMarked_iff] at hno
        unfold isStale isMachineFailed at hst
        rw [Bool.or_eq_true] at hst
        rcases hst with hst | hst
        · exact hw.2.1 (by simpa using hst)
        · exact hno hst
      refine ⟨m, List.mem_append.2 (Or.inl (List.mem_map.2 ⟨m, hmm, ?_⟩)), rfl, hw⟩
      subst hf
      exact if_neg hnot
    · intro m hmm _ hk
      refine ⟨f m, List.mem_append.2 (Or.inl (List.mem_map_of_mem hmm)), hfn m, ?_⟩
      unfold Marked1; rw [hfa]; exact hk
  · intro ha m hm' hn
    rcases List.mem_append.1 hm' with hmm | hmm
    · obtain ⟨m1, h1, rfl⟩ := List.mem_map.1 hmm
      have := ha.marked m1 h1 (hfn m1 ▸ hn)
      unfold Marked1 at this ⊢
      rw [hfa]; exact this
    · exact absurd hn (hnew m hmm).2.2

theorem unique_view {l : List Machine} (h : (l.map Machine.name).Nodup) : Unique (l.map view) := by
  intro a ha b hb he
  obtain ⟨m, hm, rfl⟩ := List.mem_map.1 ha
  obtain ⟨m', hm', rfl⟩ := List.mem_map.1 hb
  rw [inj_of_nodup h hm hm' (toList_inj he)]

/-- what a reconcile of the deployment sets out to do before the set is scaled -/
theorem trigger_spec {N : List String} {i s : S} (h : Inv N i s) (hb : Before N i s) (sort : List Str → List Str) (ok : Nat → Bool) (annOk : Bool) :
    (∀ a ∈ (trigger sort (s.cache.map view) ok annOk s.value).1, ∃ n ∈ N, a = .setPriority n.toList) ∧
    ((trigger sort (s.cache.map view) ok annOk s.value).2 = true → ∀ n ∈ N, (∃ m ∈ s.store, m.name = n ∧ Marked1 m) ∨
      .setPriority n.toList ∈ (trigger sort (s.cache.map view) ok annOk s.value).1) := by
  obtain ⟨l1, l2⟩ := loop_spec (s.cache.map view) ok (N.map String.toList) 0
  have hfind : ∀ n ∈ N, ∃ m ∈ s.cache, m.name = n ∧ Well m ∧ find (s.cache.map view) n.toList = some (view m) := by
    intro n hn
    obtain ⟨m, hm, rfl, hw⟩ := hb.inCache n hn
    exact ⟨m, hm, rfl, hw, find_of_mem (unique_view h.cnames) (List.mem_map_of_mem hm)⟩
  have hdone : ∀ m, Well m → (view m).done = false := by
    intro m hw
    unfold Mach.done view isMachineFailed
    simp [hw.1, hw.2.1]
  have hskip : (loop (s.cache.map view) ok 0 (N.map String.toList)).2.2 = true → (loop (s.cache.map view) ok 0 (N.map String.toList)).2.1 = [] := by
    intro ht
    apply List.eq_nil_iff_forall_not_mem.2
    intro x hx
    obtain ⟨hx1, hx2⟩ := ((l2 ht).2 x).1 hx
    obtain ⟨n, hn, rfl⟩ := List.mem_map.1 hx1
    obtain ⟨m, -, -, hw, hf⟩ := hfind n hn
    have := hx2 _ hf
    rw [hdone m hw] at this; cases this
  have hown : ∀ a ∈ (loop (s.cache.map view) ok 0 (N.map String.toList)).1, ∃ n ∈ N, a = .setPriority n.toList := by
    intro a ha
    obtain ⟨x, hx, rfl, -⟩ := l1 a ha
    obtain ⟨n, hn, rfl⟩ := List.mem_map.1 hx
    exact ⟨n, hn, rfl⟩
  unfold trigger
  dsimp only
  rw [hb.value]
  split
  · rename_i hnil
    have : N = [] := by simpa using hnil
    subst this
    exact ⟨fun a ha => absurd ha (by simp), fun _ n hn => absurd hn (by simp)⟩
  · cases ht : (loop (s.cache.map view) ok 0 (N.map String.toList)).2.2
    · rw [if_pos (by simp)]
      exact ⟨hown, fun hf => by cases hf⟩
    · rw [if_neg (by simp), if_pos (hskip ht)]
      refine ⟨hown, fun _ n hn => ?_⟩
      obtain ⟨m, hm, rfl, hw, hf⟩ := hfind n hn
      by_cases hk : Marked1 m
      · exact Or.inl (hb.seen m hm hn hk)
      · right
        refine (l2 ht).1 _ (List.mem_map_of_mem hn) ⟨view m, hf, hdone m hw, ?_⟩
        unfold Marked1 at hk
        unfold view
        simpa using hk

theorem Inv.step {N : List String} {i s s' : S} (hN : N.Nodup) (hp : ∀ n ∈ N, IsName n.toList) (h : Inv N i s) (hst : Step N (Apart N) (Sound N) s s') : Inv N i s' := by
  cases hst with
  | begin sort ok annOk hsort hw =>
    refine ⟨h.names, h.cnames, h.sum, h.room, h.value, ?_, h.old, ?_⟩
    · intro acts b he a ha
      have htr : trigger sort (s.cache.map view) ok annOk s.value = (acts, b) := Option.some.inj he
      have := C53_only_named sort hsort (s.cache.map view) ok annOk s.value (fun n hn => by
        obtain ⟨n', hn', rfl⟩ := h.value n hn
        exact Or.inr (hp n' hn')) a (by rw [htr]; exact ha)
      rcases this with ⟨n, hn, rfl, -⟩ | ⟨v, rfl, hv⟩
      · exact h.value n hn
      · exact fun x hx => h.value x ((hv x).1 hx).1
    · rcases h.stage with hb | ha
      · left
        refine ⟨hb.size, hb.value, hb.inStore, hb.inCache, hb.seen, ?_⟩
        intro acts b he
        have hspec := trigger_spec h hb sort ok annOk
        rw [Option.some.inj he] at hspec
        exact hspec
      · exact Or.inr ⟨ha.size, ha.marked⟩
  | act a acts b hw =>
    have hown := h.acts _ _ hw a List.mem_cons_self
    cases a with
    | setPriority x =>
      obtain ⟨n, hn, rfl⟩ := hown
      have h1 : Inv N i { s with store := s.store.map (mark n.toList) } := by
        refine h.mapStore _ (mark_name _) ?_ ?_ ?_ ?_
        · intro m _ hl
          cases hm : isLive m
          · rw [live_eq, mark_phase] at hl
            have : ¬ isLive m = true := by simp [hm]
            rw [live_eq] at this
            exfalso
            refine this ⟨hl.1, hl.2.1, ?_⟩
            cases ht : isMachineTriggeredForDeletion m
            · rfl
            · rw [mark_trigger _ _ ht] at hl; cases hl.2.2
          · rfl
        · intro m _ hnn ht
          rwa [mark_other _ _ fun he => hnn (toList_inj he ▸ hn)] at ht
        · intro m _ hk; exact mark_marked _ _ (Or.inr hk)
        · intro _ m _ _ hw
          exact ⟨by rw [mark_deleting]; exact hw.1, by rw [mark_phase]; exact hw.2⟩
      refine ⟨h1.names, h1.cnames, h1.sum, h1.room, h1.value, ?_, h1.old, ?_⟩
      · intro acts' b' he a ha
        obtain ⟨rfl, rfl⟩ : acts = acts' ∧ b = b' := by simpa using Option.some.inj he
        exact h.acts _ _ hw a (List.mem_cons_of_mem _ ha)
      · rcases h.stage with hb | ha
        · rcases h1.stage with hb1 | ha1
          · left
            refine ⟨hb1.size, hb1.value, hb1.inStore, hb1.inCache, hb1.seen, ?_⟩
            intro acts' b' he
            obtain ⟨rfl, rfl⟩ : acts = acts' ∧ b = b' := by simpa using Option.some.inj he
            obtain ⟨w1, w2⟩ := hb.work _ _ hw
            refine ⟨fun a ha => w1 a (List.mem_cons_of_mem _ ha), fun hbt n' hn' => ?_⟩
            rcases w2 hbt n' hn' with ⟨m, hm, he, hk⟩ | hin
            · exact Or.inl ⟨mark n.toList m, List.mem_map_of_mem hm, (mark_name _ _).trans he, mark_marked _ _ (Or.inr hk)⟩
            · rcases List.mem_cons.1 hin with heq | hin
              · have : n' = n := toList_inj (by injection heq)
                subst this
                obtain ⟨m, hm, rfl, -⟩ := hb.inStore n' hn'
                exact Or.inl ⟨mark m.name.toList m, List.mem_map_of_mem hm, mark_name _ _, mark_marked _ _ (Or.inl rfl)⟩
              · exact Or.inr hin
          · exact Or.inr ⟨ha1.size, ha1.marked⟩
        · rcases h1.stage with hb1 | ha1
          · right
            refine ⟨ha.size, ?_⟩
            intro m hm hmn
            obtain ⟨m1, hm1, rfl⟩ := List.mem_map.1 hm
            rw [mark_name] at hmn
            exact mark_marked _ _ (Or.inr (ha.marked m1 hm1 hmn))
          · exact Or.inr ⟨ha1.size, ha1.marked⟩
    | setAnnotation v =>
      refine ⟨h.names, h.cnames, h.sum, h.room, hown, ?_, h.old, ?_⟩
      · intro acts' b' he a ha
        obtain ⟨rfl, rfl⟩ : acts = acts' ∧ b = b' := by simpa using Option.some.inj he
        exact h.acts _ _ hw a (List.mem_cons_of_mem _ ha)
      · rcases h.stage with hb | ha
        · obtain ⟨n, _, he⟩ := (hb.work _ _ hw).1 _ List.mem_cons_self
          cases he
        · exact Or.inr ⟨ha.size, ha.marked⟩
  | scale hw =>
    refine ⟨h.names, h.cnames, h.sum, h.room, h.value, ?_, h.old, Or.inr ⟨rfl, ?_⟩⟩
    · intro acts b he; cases he
    · rcases h.stage with hb | ha
      · intro m hm hn
        rcases (hb.work _ _ hw).2 rfl m.name hn with ⟨m', hm', he, hk⟩ | hin
        · obtain rfl := inj_of_nodup h.names hm' hm he
          exact hk
        · cases hin
      · exact ha.marked
  | stop =>
    refine ⟨h.names, h.cnames, h.sum, h.room, h.value, ?_, h.old, ?_⟩
    · intro acts b he; cases he
    · rcases h.stage with hb | ha
      · exact Or.inl ⟨hb.size, hb.value, hb.inStore, hb.inCache, hb.seen, fun acts b he => by cases he⟩
      · exact Or.inr ⟨ha.size, ha.marked⟩
  | run srt createOut t new hm hsrt hlen hnd hnew =>
    exact h.run hN hm srt createOut t new (fun l => (hsrt l).perm) hlen hnd hnew
  | deliver =>
    refine ⟨h.names, h.names, h.sum, h.room, h.value, h.acts, h.old, ?_⟩
    rcases h.stage with hb | ha
    · exact Or.inl ⟨hb.size, hb.value, hb.inStore, hb.inStore, fun m hm _ hk => ⟨m, hm, rfl, hk⟩, hb.work⟩
    · exact Or.inr ⟨ha.size, ha.marked⟩
  | vanish n hn =>
    refine h.withStore _ ?_ ?_ ?_ ?_ ?_
    · exact h.names.sublist (List.filter_sublist.map _)
    · exact Nat.le_trans (List.Sublist.countP_le List.filter_sublist) h.room
    · intro m hm; exact h.old m (List.mem_filter.1 hm).1
    · intro hb
      have hkeep : ∀ m ∈ s.store, m.name ∈ N → m ∈ s.store.filter fun m => m.name ≠ n := by
        intro m hm hmn
        refine List.mem_filter.2 ⟨hm, ?_⟩
        have : m.name ≠ n := by
          intro he
          obtain ⟨m', hm', he', hw⟩ := hb.inStore _ hmn
          have := hn m' hm' (he'.trans he)
          rw [hw.1] at this; cases this
        simpa using this
      constructor
      · intro x hx
        obtain ⟨m, hm, rfl, hw⟩ := hb.inStore x hx
        exact ⟨m, hkeep m hm hx, rfl, hw⟩
      · intro m hm hmn hk
        exact ⟨m, hkeep m hm hmn, rfl, hk⟩
    · intro ha m hm
      exact ha.marked m (List.mem_filter.1 hm).1
  | phase n p hact hp1 hp2 =>
    refine h.mapStore (fun m => if m.name = n then { m with phase := p } else m) ?_ ?_ ?_ ?_ ?_
    · intro m; split <;> rfl
    · intro m hm hl
      split at hl
      · rename_i he
        have ha := hact m hm he
        rw [live_eq] at hl ⊢
        unfold isMachineActive at ha
        simp only [Bool.and_eq_true, bne_iff_ne, ne_eq] at ha
        exact ⟨ha.1, ha.2, hl.2.2⟩
      · exact hl
    · intro m _ _ ht
      split at ht <;> exact ht
    · intro m _ hk
      split <;> exact hk
    · intro hb m hm hn hw
      split
      · rename_i he
        refine ⟨hw.1, ?_, hp1⟩
        intro hf
        have hsz := hp2 hf (he ▸ hn)
        have := h.sum; have := hb.size
        have : 0 < N.length := List.length_pos_of_mem hn
        omega
      · exact hw

theorem Request.inv {N : List String} {s : S} (h : Request N s) : Inv N s s := by
  have hnamed : ∀ n ∈ N, ∃ m ∈ s.store, m.name = n ∧ isLive m = true := by
    intro n hn
    obtain ⟨m, hm, he, hl, -⟩ := h.named n hn
    exact ⟨m, hm, he, (isLive_iff m).2 hl⟩
  have hwell : ∀ n ∈ N, ∃ m ∈ s.store, m.name = n ∧ Well m := by
    intro n hn
    obtain ⟨m, hm, he, hl, hd⟩ := h.named n hn
    have := (live_eq m).1 ((isLive_iff m).2 hl)
    exact ⟨m, hm, he, hd, this.1, this.2.1⟩
  refine ⟨h.nodup, h.seen ▸ h.nodup, h.want, ?_, ?_, ?_, fun m hm _ ht => ⟨m, hm, rfl, ht⟩, Or.inl ⟨rfl, h.value, hwell, h.seen ▸ hwell, ?_, ?_⟩⟩
  · have h1 := cnt_split N s.store
    rw [named_count N h.distinct _ h.nodup hnamed] at h1
    have h2 := cnt_split [] s.store
    rw [named_none [] _ fun m _ hn => by cases hn] at h2
    have h3 := h.count
    rw [others_length] at h3
    have := h.want
    omega
  · intro x hx
    rw [h.value] at hx
    obtain ⟨n, hn, rfl⟩ := List.mem_map.1 hx
    exact ⟨n, hn, rfl⟩
  · intro acts b he; rw [h.idle] at he; cases he
  · intro m hm _ hk; rw [h.seen] at hm; exact ⟨m, hm, rfl, hk⟩
  · intro acts b he; rw [h.idle] at he; cases he

theorem Request.reach {N : List String} {i s : S} (h : Request N i) (hs : Steps N (Apart N) (Sound N) i s) : Inv N i s := by
  induction hs with
  | refl => exact h.inv
  | tail _ st ih => exact ih.step h.distinct h.proper st

/-- **C129** (partial: the machine set controller sees all machines as they are and does not run between the first mark and the scaling; named machines do not fail before):
However the two controllers, the machine controller and the watch interleave and whatever calls fail, a run of the machine set controller picks no machine to make the set
smaller; each machine that it deletes is named, or has failed, or was marked before the request; and it creates no more machines than are missing among those not named. -/
theorem C129_only_named_partial {N : List String} {i s : S} (h : Request N i) (hs : Steps N (Apart N) (Sound N) i s) (hm : Apart N s)
    (srt : List Machine → List Machine) (createOut : Nat → CreateOutcome) (hsrt : ∀ l, IsSortOf less (srt l) l) :
    (s.plan srt createOut).victims = [] ∧
    (∀ n ∈ Lag.struck (s.plan srt createOut), n ∈ N ∨ (∃ m ∈ s.store, m.name = n ∧ m.phase = .failed) ∨ ∃ m ∈ i.store, m.name = n ∧ SpecMarked m) ∧
    (s.plan srt createOut).issued ≤ s.want - (others N s.store).length := by
  have hinv := h.reach hs
  have hperm : ∀ l, (srt l).Perm l := fun l => (hsrt l).perm
  obtain ⟨h1, h2⟩ := plan_spec h.distinct hinv hm srt createOut hperm
  refine ⟨h1, ?_, by rw [others_length]; exact h2⟩
  intro n hn
  obtain ⟨m, hmm, rfl, hst, -⟩ := struck_spec h.distinct hinv hm srt createOut hperm n hn
  by_cases hN : m.name ∈ N
  · exact Or.inl hN
  · right
    unfold isStale isMachineFailed at hst
    rw [Bool.or_eq_true] at hst
    rcases hst with hst | hst
    · exact Or.inl ⟨m, hmm, rfl, by simpa using hst⟩
    · obtain ⟨m0, hm0, he, ht⟩ := hinv.old m hmm hN hst
      exact Or.inr ⟨m0, hm0, he, (specMarked_iff m0).2 ht⟩

theorem Steps.trans {old : List String} {may : S → Prop} {fails : S → String → Prop} {a b c : S} (h1 : Steps old may fails a b) (h2 : Steps old may fails b c) :
    Steps old may fails a c := by
  induction h2 with
  | refl => exact h1
  | tail _ st ih => exact .tail ih st

theorem Steps.inv {N : List String} {i s s' : S} (hN : N.Nodup) (hp : ∀ n ∈ N, IsName n.toList) (h : Inv N i s) (hs : Steps N (Apart N) (Sound N) s s') : Inv N i s' := by
  induction hs with
  | refl => exact h
  | tail _ st ih => exact ih.step hN hp st

/-- the requests are made -/
theorem acts_done {N : List String} (may : S → Prop) (fails : S → String → Prop) : ∀ (acts : List Action) (s : S), s.work = some (acts, true) → (∀ a ∈ acts, Own N a) →
    ∃ s', Steps N may fails s s' ∧ s'.work = some ([], true) ∧ s'.want = s.want ∧ s'.size = s.size ∧ s'.store.map Machine.name = s.store.map Machine.name ∧
      ∀ m ∈ s.store, m.name ∉ N → m ∈ s'.store
  | [], s, hw, _ => ⟨s, .refl, hw, rfl, rfl, rfl, fun m hm _ => hm⟩
  | a :: acts, s, hw, ho => by
    obtain ⟨s', h1, h2, h3, h4, h5, h6⟩ := acts_done (N := N) may fails acts { s.perform a with work := some (acts, true) } rfl fun x hx => ho x (List.mem_cons_of_mem _ hx)
    refine ⟨s', (Steps.tail .refl (Step.act a acts true hw)).trans h1, h2, ?_, ?_, ?_, ?_⟩
    · rw [h3]; cases a <;> rfl
    · rw [h4]; cases a <;> rfl
    · rw [h5]
      cases a with
      | setPriority x => exact map_names _ (mark_name x) _
      | setAnnotation v => rfl
    · intro m hm hn
      apply h6 m _ hn
      cases a with
      | setPriority x =>
        obtain ⟨n, hnn, rfl⟩ := ho _ List.mem_cons_self
        exact List.mem_map.2 ⟨m, hm, mark_other _ _ fun he => hn (toList_inj he ▸ hnn)⟩
      | setAnnotation v => exact hm

/-- **C129**: Whatever has happened so far, the named machines can still go: there is a continuation after which the set has its new size, all named machines that are left are
being deleted, no machine has been created, and all other machines in service are as they were. -/
theorem C129_named_go {N : List String} {i s : S} (h : Request N i) (hs : Steps N (Apart N) (Sound N) i s) :
    ∃ s', Steps N (Apart N) (Sound N) s s' ∧ s'.size = s.want ∧ (∀ m ∈ s'.store, m.name ∈ N → m.deleting = true) ∧
      s'.store.map Machine.name = s.store.map Machine.name ∧ ∀ m ∈ s.store, m.name ∉ N → SpecLive m → m ∈ s'.store := by
  -- the set gets its size
  have hscaled : ∃ s1, Steps N (Apart N) (Sound N) s s1 ∧ s1.want = s.want ∧ s1.size = s1.want ∧ After N s1 ∧ s1.cache = s1.store ∧
      s1.store.map Machine.name = s.store.map Machine.name ∧ ∀ m ∈ s.store, m.name ∉ N → m ∈ s1.store := by
    have hinv := h.reach hs
    rcases hinv.stage with hb | ha
    · let s2 : S := { s with work := none, cache := s.store }
      have st2 : Steps N (Apart N) (Sound N) s s2 := .tail (.tail .refl .stop) .deliver
      have hinv2 := st2.inv h.distinct h.proper hinv
      have hb2 : Before N i s2 := ⟨hb.size, hb.value, hb.inStore, hb.inStore, fun m hm _ hk => ⟨m, hm, rfl, hk⟩, fun acts b he => by cases he⟩
      obtain ⟨t1, t2⟩ := trigger_spec hinv2 hb2 id (fun _ => true) true
      have t3 : (trigger id (s2.cache.map view) (fun _ => true) true s2.value).2 = true := C53_succeeds _ _ _
      generalize htr : trigger id (s2.cache.map view) (fun _ => true) true s2.value = tr at t1 t2 t3
      obtain ⟨acts, b⟩ := tr
      obtain rfl : b = true := t3
      let s3 : S := { s2 with work := some (acts, true) }
      have st3 : Step N (Apart N) (Sound N) s2 s3 := by
        have := Step.begin (old := N) (may := Apart N) (fails := Sound N) (s := s2) id (fun _ => true) true (fun l => List.Perm.refl l) rfl
        rw [htr] at this
        exact this
      obtain ⟨s4, st4, hw4, hwant4, hsize4, hn4, hk4⟩ := acts_done (N := N) (Apart N) (Sound N) acts s3 rfl fun a ha => by
        obtain ⟨n, hn, rfl⟩ := t1 a ha
        exact ⟨n, hn, rfl⟩
      have st5 : Step N (Apart N) (Sound N) s4 { s4 with size := s4.want, work := none } := .scale hw4
      have sts : Steps N (Apart N) (Sound N) s { s4 with size := s4.want, work := none } := .tail ((Steps.tail st2 st3).trans st4) st5
      have hinv5 := sts.inv h.distinct h.proper hinv
      have hafter : After N { s4 with size := s4.want, work := none } := by
        rcases hinv5.stage with hb5 | ha5
        · refine ⟨rfl, fun m hm hn => ?_⟩
          exfalso
          have := hinv5.sum
          have := hb5.size
          have : 0 < N.length := List.length_pos_of_mem hn
          dsimp only at *
          omega
        · exact ha5
      refine ⟨{ s4 with size := s4.want, work := none, cache := s4.store }, .tail sts .deliver, hwant4, rfl, ⟨rfl, hafter.marked⟩, rfl, hn4, hk4⟩
    · exact ⟨{ s with cache := s.store }, .tail .refl .deliver, rfl, ha.size, ⟨ha.size, ha.marked⟩, rfl, rfl, fun m hm _ => hm⟩
  obtain ⟨s1, st1, hw1, hsz1, ha1, hc1, hn1, hk1⟩ := hscaled
  have hinv1 := st1.inv h.distinct h.proper (h.reach hs)
  have hap : Apart N s1 := ⟨hc1, Or.inl hsz1⟩
  -- a run in which no machine can be created
  have hperm : ∀ l : List Machine, (l.mergeSort (fun a b => !less b a)).Perm l := fun l => (C03_sort_exists l).perm
  have hrun := Step.run (old := N) (may := Apart N) (fails := Sound N) (s := s1) (fun l => l.mergeSort (fun a b => !less b a)) (fun _ => ⟨.other, false⟩) (fun _ => ⟨true, true⟩) []
    hap C03_sort_exists (by simp [landedCount]) (by rw [List.append_nil]; exact hinv1.names) (fun m hm => by cases hm)
  have hstr := struck_spec h.distinct hinv1 hap (fun l => l.mergeSort (fun a b => !less b a)) (fun _ => ⟨.other, false⟩) hperm
  have hstruck : ∀ m ∈ s1.store, m.name ∈ N → m.deleting = false →
      m.name ∈ Lag.struck (s1.plan (fun l => l.mergeSort (fun a b => !less b a)) (fun _ => ⟨.other, false⟩)) := by
    intro m hm hn hd
    unfold Lag.struck S.plan
    rw [staleTerminated_eq, hc1]
    refine List.mem_map.2 ⟨m, List.mem_filter.2 ⟨List.mem_append.2 (Or.inl (List.mem_filter.2 ⟨hm, ?_⟩)), by simp [hd]⟩, rfl⟩
    have := ha1.marked m hm hn
    unfold Marked1 at this
    unfold isStale isMachineTriggeredForDeletion
    simp [this]
  refine ⟨_, .tail st1 hrun, ?_, ?_, ?_, ?_⟩
  · show s1.size = s.want
    rw [hsz1, hw1]
  · intro m hm hn
    rcases List.mem_append.1 hm with hm | hm
    · obtain ⟨m1, hm1, rfl⟩ := List.mem_map.1 hm
      by_cases hin : m1.name ∈ Lag.struck (s1.plan (fun l => l.mergeSort (fun a b => !less b a)) (fun _ => ⟨.other, false⟩))
      · rw [if_pos hin]
        unfold Lag.strike
        simp
      · rw [if_neg hin] at hn ⊢
        cases hd : m1.deleting
        · exact absurd (hstruck m1 hm1 hn hd) hin
        · rfl
    · cases hm
  · dsimp only [Lag.after]
    rw [List.append_nil, map_names _ (by intro m; split <;> rfl), hn1]
  · intro m hm hn hl
    have hm1 := hk1 m hm hn
    refine List.mem_append.2 (Or.inl (List.mem_map.2 ⟨m, hm1, if_neg ?_⟩))
    intro hin
    obtain ⟨m2, hm2, he, hst, -⟩ := hstr _ hin
    obtain rfl := inj_of_nodup hinv1.names hm2 hm1 he
    exact hl.1 ((isStale_iff m2).1 hst)

/-! ### The restrictions are needed -/

/-- two machines, the second one older -/
def a0 : Machine := { name := "a", phase := .running, creation := 1 }
def b0 : Machine := { name := "b", phase := .running }
def c0 : Machine := { name := "c" }
def aMarked : Machine := { a0 with annotations := [(machinePriorityKey, "1")] }
def aGone : Machine := { aMarked with phase := .terminating, deleting := true }
def aFailed : Machine := { a0 with phase := .failed }
def aReplaced : Machine := { a0 with phase := .terminating, deleting := true }

/-- two machines, of which `a` is to go -/
def start : S := { want := 1, value := ['a'], size := 2, store := [a0, b0], cache := [a0, b0] }

theorem start_request : Request ["a"] start := by
  refine ⟨?_, ?_, ?_, ?_, ?_, rfl, ?_, rfl, rfl⟩
  · show List.Nodup _; decide
  · decide
  · intro n hn
    rw [List.mem_singleton.1 hn]
    exact ⟨by decide, by decide⟩
  · intro n hn
    rw [List.mem_singleton.1 hn]
    exact ⟨a0, by decide, rfl, (isLive_iff a0).1 (by decide), rfl⟩
  · rw [others_length]; decide
  · decide

/-- a sort, spelled out for the two lists below -/
def sorted (l : List Machine) : List Machine :=
  if l = [a0, b0] then [b0, a0] else if l = [b0, c0] then [c0, b0] else l.mergeSort (fun a b => !less b a)

theorem sorted_sorts : ∀ l, IsSortOf less (sorted l) l := by
  intro l
  unfold sorted
  split
  · next h => subst h; exact ⟨List.Perm.swap _ _ _, by decide +kernel⟩
  · split
    · next h => subst h; exact ⟨List.Perm.swap _ _ _, by decide +kernel⟩
    · exact C03_sort_exists l

/-- what is wanted of a run in a state -/
def OnlyNamed (N : List String) (i s : S) : Prop :=
  ∀ srt createOut, (∀ l, IsSortOf less (srt l) l) → ∀ n ∈ Lag.struck (s.plan srt createOut),
    n ∈ N ∨ (∃ m ∈ s.store, m.name = n ∧ m.phase = .failed) ∨ ∃ m ∈ i.store, m.name = n ∧ SpecMarked m

theorem not_onlyNamed {s : S} (x : String) (hx : x ≠ "a") (hs : x ∈ Lag.struck (s.plan sorted fun _ => ⟨.none, true⟩))
    (hf : ∀ m ∈ s.store, m.name = x → m.phase ≠ .failed) : ¬ OnlyNamed ["a"] start s := by
  intro h
  rcases h sorted (fun _ => ⟨.none, true⟩) sorted_sorts x hs with h | ⟨m, hm, he, hp⟩ | ⟨m, hm, -, hk⟩
  · exact hx (List.mem_singleton.1 h)
  · exact hf m hm he hp
  · rw [specMarked_iff] at hk
    have : ∀ m ∈ start.store, isMachineTriggeredForDeletion m = false := by decide
    rw [this m hm] at hk; cases hk

/-- C129, false part: the machine set controller reads the size of the set from the API server and the machines from its cache. When the cache does not show the marks yet, it
deletes the oldest machine instead of the named one. -/
theorem C129_late_cache_false : ¬ ∀ (N : List String) (i s : S), Request N i →
    Steps N (fun s => s.size = s.want ∨ ∀ m ∈ s.store, m.name ∈ N → ¬ SpecMarked m) (Sound N) i s → (s.size = s.want ∨ ∀ m ∈ s.store, m.name ∈ N → ¬ SpecMarked m) →
    OnlyNamed N i s := by
  intro h
  let may := fun s : S => s.size = s.want ∨ ∀ m ∈ s.store, m.name ∈ ["a"] → ¬ SpecMarked m
  have h1 := Step.begin (old := ["a"]) (may := may) (fails := Sound ["a"]) (s := start) id (fun _ => true) true (fun l => List.Perm.refl l) rfl
  have e1 : trigger id (start.cache.map view) (fun _ => true) true start.value = ([.setPriority ['a']], true) := by decide +kernel
  rw [e1] at h1
  have h2 := Step.act (old := ["a"]) (may := may) (fails := Sound ["a"]) (s := { start with work := some ([.setPriority ['a']], true) }) (.setPriority ['a']) [] true rfl
  have e2 : ({ S.perform { start with work := some ([.setPriority ['a']], true) } (.setPriority ['a']) with work := some ([], true) } : S)
      = { start with store := [aMarked, b0], work := some ([], true) } := by
    show ({ start with store := [a0, b0].map (mark ['a']), work := some ([], true) } : S) = _
    have : [a0, b0].map (mark ['a']) = [aMarked, b0] := by decide +kernel
    rw [this]
  rw [e2] at h2
  have h3 := Step.scale (old := ["a"]) (may := may) (fails := Sound ["a"]) (s := { start with store := [aMarked, b0], work := some ([], true) }) rfl
  refine not_onlyNamed "b" (by decide) ?_ ?_ (h ["a"] start _ start_request (.tail (.tail (.tail .refl h1) h2) h3) (Or.inl rfl))
  · decide +kernel
  · decide +kernel

/-- C129, false part: even with an up-to-date cache: when the machine set controller runs after a machine has been marked and before the set has its new size, it replaces the
machine; when the set has its new size, a machine too many is there and one that is not named is deleted. -/
theorem C129_run_between_false : ¬ ∀ (N : List String) (i s : S), Request N i →
    Steps N (fun s => s.cache = s.store) (Sound N) i s → s.cache = s.store → OnlyNamed N i s := by
  intro h
  let may := fun s : S => s.cache = s.store
  have h1 := Step.begin (old := ["a"]) (may := may) (fails := Sound ["a"]) (s := start) id (fun _ => true) true (fun l => List.Perm.refl l) rfl
  have e1 : trigger id (start.cache.map view) (fun _ => true) true start.value = ([.setPriority ['a']], true) := by decide +kernel
  rw [e1] at h1
  have h2 := Step.act (old := ["a"]) (may := may) (fails := Sound ["a"]) (s := { start with work := some ([.setPriority ['a']], true) }) (.setPriority ['a']) [] true rfl
  have e2 : ({ S.perform { start with work := some ([.setPriority ['a']], true) } (.setPriority ['a']) with work := some ([], true) } : S)
      = { start with store := [aMarked, b0], work := some ([], true) } := by
    show ({ start with store := [a0, b0].map (mark ['a']), work := some ([], true) } : S) = _
    have : [a0, b0].map (mark ['a']) = [aMarked, b0] := by decide +kernel
    rw [this]
  rw [e2] at h2
  have h3 := Step.deliver (old := ["a"]) (may := may) (fails := Sound ["a"]) (s := { start with store := [aMarked, b0], work := some ([], true) })
  have h4 := Step.run (old := ["a"]) (may := may) (fails := Sound ["a"]) (s := { start with store := [aMarked, b0], cache := [aMarked, b0], work := some ([], true) })
    sorted (fun _ => ⟨.none, true⟩) (fun _ => ⟨true, true⟩) [c0] rfl sorted_sorts (by decide +kernel) (by decide +kernel)
    (fun m hm => by rw [List.mem_singleton.1 hm]; decide)
  have e4 : Lag.after (fun _ => ⟨true, true⟩) (S.plan { start with store := [aMarked, b0], cache := [aMarked, b0], work := some ([], true) } sorted fun _ => ⟨.none, true⟩) [c0]
      [aMarked, b0] = [aGone, b0, c0] := by decide +kernel
  have h5 := Step.scale (old := ["a"]) (may := may) (fails := Sound ["a"])
    (s := { start with store := [aGone, b0, c0], cache := [aMarked, b0], work := some ([], true) }) rfl
  have h6 := Step.deliver (old := ["a"]) (may := may) (fails := Sound ["a"])
    (s := { start with size := 1, store := [aGone, b0, c0], cache := [aMarked, b0], work := none })
  dsimp only at h4
  rw [e4] at h4
  refine not_onlyNamed "c" (by decide) ?_ ?_ (h ["a"] start _ start_request (.tail (.tail (.tail (.tail (.tail (.tail .refl h1) h2) h3) h4) h5) h6) rfl)
  · decide +kernel
  · decide +kernel

/-- C129, false part: a named machine that fails before it is marked is replaced; afterwards a machine too many is there and one that is not named is deleted. -/
theorem C129_named_fails_false : ¬ ∀ (N : List String) (i s : S), Request N i →
    Steps N (Apart N) (fun _ _ => True) i s → Apart N s → OnlyNamed N i s := by
  intro h
  let may := Apart ["a"]
  let fails := fun (_ : S) (_ : String) => True
  have hno : ∀ m ∈ [aFailed, b0], m.name ∈ ["a"] → ¬ SpecMarked m := by
    intro m hm _
    rw [specMarked_iff]
    revert m; decide
  have h1 := Step.phase (old := ["a"]) (may := may) (fails := fails) (s := start) "a" .failed (by decide) (by decide) (fun _ => trivial)
  have e1 : (start.store.map fun m => if m.name = "a" then { m with phase := .failed } else m) = [aFailed, b0] := by decide +kernel
  rw [e1] at h1
  have h2 := Step.deliver (old := ["a"]) (may := may) (fails := fails) (s := { start with store := [aFailed, b0] })
  have h3 := Step.run (old := ["a"]) (may := may) (fails := fails) (s := { start with store := [aFailed, b0], cache := [aFailed, b0] })
    sorted (fun _ => ⟨.none, true⟩) (fun _ => ⟨true, true⟩) [c0] ⟨rfl, Or.inr hno⟩ sorted_sorts (by decide +kernel) (by decide +kernel)
    (fun m hm => by rw [List.mem_singleton.1 hm]; decide)
  have e3 : Lag.after (fun _ => ⟨true, true⟩) (S.plan { start with store := [aFailed, b0], cache := [aFailed, b0] } sorted fun _ => ⟨.none, true⟩) [c0]
      [aFailed, b0] = [aReplaced, b0, c0] := by decide +kernel
  dsimp only at h3
  rw [e3] at h3
  have h4 := Step.deliver (old := ["a"]) (may := may) (fails := fails) (s := { start with store := [aReplaced, b0, c0], cache := [aFailed, b0] })
  have h5 := Step.begin (old := ["a"]) (may := may) (fails := fails) (s := { start with store := [aReplaced, b0, c0], cache := [aReplaced, b0, c0] })
    id (fun _ => true) true (fun l => List.Perm.refl l) rfl
  have e5 : trigger id ([aReplaced, b0, c0].map view) (fun _ => true) true start.value = ([.setAnnotation []], true) := by decide +kernel
  dsimp only at h5
  rw [e5] at h5
  have h6 := Step.act (old := ["a"]) (may := may) (fails := fails)
    (s := { start with store := [aReplaced, b0, c0], cache := [aReplaced, b0, c0], work := some ([.setAnnotation []], true) }) (.setAnnotation []) [] true rfl
  have h7 := Step.scale (old := ["a"]) (may := may) (fails := fails)
    (s := { start with value := [], store := [aReplaced, b0, c0], cache := [aReplaced, b0, c0], work := some ([], true) }) rfl
  refine not_onlyNamed "c" (by decide) ?_ ?_ (h ["a"] start _ start_request (.tail (.tail (.tail (.tail (.tail (.tail (.tail .refl h1) h2) h3) h4) h5) h6) h7) ⟨rfl, Or.inl rfl⟩)
  · decide +kernel
  · decide +kernel

/-- the hypotheses of `C129_only_named_partial` and `C129_named_go` are met in the beginning, and after the marks and the new size have been written and seen -/
example : Request ["a"] start ∧ Apart ["a"] start ∧ Apart ["a"] { start with size := 1, store := [aMarked, b0], cache := [aMarked, b0] } :=
  ⟨start_request, ⟨rfl, Or.inr fun m hm _ => by rw [specMarked_iff]; revert m; decide⟩, rfl, Or.inl rfl⟩

/-- there, `a` is deleted -/
example : Lag.struck (S.plan { start with size := 1, store := [aMarked, b0], cache := [aMarked, b0] } sorted fun _ => ⟨.none, true⟩) = ["a"] := by decide +kernel

end MCM.ScaleIn
