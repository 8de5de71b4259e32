import Verif.Model.MachineSet
import Verif.Lemmas.SlowStart
namespace MCM.MachineSet
open MCM

theorem filter_map_of_agree {α} (p : α → Bool) (f : α → α) (l : List α)
    (h : ∀ a ∈ l, p (f a) = p a ∧ (p a = true → f a = a)) :
    (l.map f).filter p = l.filter p := by
  induction l with
  | nil => rfl
  | cons a t ih =>
    have ha := h a (by simp)
    have iht := ih (fun b hb => h b (by simp [hb]))
    by_cases hp : p a = true
    · simp [hp, ha.2 hp, iht]
    · have hpf : p (f a) = false := by rw [ha.1]; simpa using hp
      simp [hpf, hp, iht]

theorem isLive_prepare (o m) (h : isLive (prepareMachineForDeletion o m) = true) : isLive m = true := by
  rcases m with ⟨n, an, ph, c, d⟩
  rcases o with ⟨d1, d2⟩
  cases d <;> cases d1 <;> cases d2 <;>
    simp_all [prepareMachineForDeletion, isLive, isMachineActive, isStale, isMachineFailed,
      isMachineTriggeredForDeletion]

theorem not_isLive_prepare_ok (m : Machine) (h : m.deleting = false) (o : TermOutcome) (ho : o.statusOk = true) :
    isLive (prepareMachineForDeletion o m) = false := by
  rcases m with ⟨n, an, ph, c, d⟩
  rcases o with ⟨d1, d2⟩
  simp only at h ho
  subst h ho
  cases d1 <;> simp [prepareMachineForDeletion, isLive, isMachineActive]

theorem eq_of_name_eq {w : List Machine} (hn : (w.map Machine.name).Nodup) {a b : Machine}
    (ha : a ∈ w) (hb : b ∈ w) (h : a.name = b.name) : a = b := by
  induction w with
  | nil => simp at ha
  | cons x t ih =>
    simp only [List.map_cons, List.nodup_cons] at hn
    rcases List.mem_cons.1 ha with rfl | ha' <;> rcases List.mem_cons.1 hb with rfl | hb'
    · rfl
    · exact absurd (List.mem_map.2 ⟨b, hb', h.symm⟩) hn.1
    · exact absurd (List.mem_map.2 ⟨a, ha', h⟩) hn.1
    · exact ih hn.2 ha' hb'

/-- terminating the stale machines leaves the live ones exactly as they were -/
theorem filter_live_terminate_stale (o) (w : List Machine) (hn : (w.map Machine.name).Nodup) :
    (terminateMachines o (w.filter isStale) w).filter isLive = w.filter isLive := by
  unfold terminateMachines
  apply filter_map_of_agree
  intro a ha
  by_cases hmem : a.name ∈ (w.filter isStale).map Machine.name
  · obtain ⟨b, hb, hbn⟩ := List.mem_map.1 hmem
    have hbw := List.mem_filter.1 hb
    have : b = a := eq_of_name_eq hn hbw.1 ha hbn
    subst this
    have hnl : isLive b = false := by simp [isLive, hbw.2]
    constructor
    · simp only [hmem, if_true]
      rw [hnl]
      cases hx : isLive (prepareMachineForDeletion (o b.name) b)
      · rfl
      · have := isLive_prepare _ _ hx
        simp [hnl] at this
    · intro h; simp [hnl] at h
  · simp [hmem]

theorem length_filter_map_eq_countP {α} (p : α → Bool) (f : α → α) (l : List α)
    (h : ∀ a ∈ l, p (f a) = true → p a = true) :
    ((l.map f).filter p).length = (l.filter p).countP (fun a => p (f a)) := by
  induction l with
  | nil => rfl
  | cons a t ih =>
    have ha := h a (by simp)
    have iht := ih (fun b hb => h b (by simp [hb]))
    by_cases hp : p (f a) = true
    · simp [hp, ha hp, iht]
    · by_cases hq : p a = true
      · simp [hp, hq, iht]
      · simp [hp, hq, iht]

theorem live_terminate_eq (o) (T w : List Machine) :
    ((terminateMachines o T w).filter isLive).length =
      (w.filter isLive).countP (fun m => isLive (if m.name ∈ T.map Machine.name then
        prepareMachineForDeletion (o m.name) m else m)) := by
  unfold terminateMachines
  apply length_filter_map_eq_countP
  intro a _ h
  split at h
  · exact isLive_prepare _ _ h
  · exact h

/-- names of the kept machines are not among the victims' names -/
theorem kept_not_victim {L V K : List Machine} (hperm : (V ++ K).Perm L) (hn : (L.map Machine.name).Nodup) :
    ∀ m ∈ K, m.name ∉ V.map Machine.name := by
  have h1 : ((V ++ K).map Machine.name).Nodup := (hperm.map Machine.name).nodup_iff.2 hn
  rw [List.map_append, List.nodup_append] at h1
  intro m hm hv
  exact h1.2.2 _ hv _ (List.mem_map.2 ⟨m, hm, rfl⟩) rfl

theorem countP_kept {L V K : List Machine} (o : String → TermOutcome) (hperm : (V ++ K).Perm L) (hn : (L.map Machine.name).Nodup)
    (hl : ∀ m ∈ L, isLive m = true) :
    K.countP (fun m => isLive (if m.name ∈ V.map Machine.name then
        prepareMachineForDeletion (o m.name) m else m)) = K.length := by
  rw [List.countP_eq_length]
  intro m hm
  have := kept_not_victim hperm hn m hm
  simp only [this, if_false]
  exact hl m (hperm.subset (by simp [hm]))

/-- exact effect of terminating victims `V` among live machines `L = V + K` -/
theorem live_after_victims_ge {w V K : List Machine} (o) (hn : (w.map Machine.name).Nodup)
    (hperm : (V ++ K).Perm (w.filter isLive)) :
    K.length ≤ ((terminateMachines o V w).filter isLive).length := by
  rw [live_terminate_eq, ← hperm.countP_eq, List.countP_append]
  rw [countP_kept o hperm (List.Nodup.sublist (List.Sublist.map _ List.filter_sublist) hn)
    (fun m hm => (List.mem_filter.1 hm).2)]
  omega

theorem live_after_victims_le (o) (w V : List Machine) :
    ((terminateMachines o V w).filter isLive).length ≤ (w.filter isLive).length := by
  rw [live_terminate_eq]
  exact List.countP_le_length

theorem live_after_victims_eq {w V K : List Machine} (o : String → TermOutcome)
    (ho : ∀ n, (o n).statusOk = true) (hn : (w.map Machine.name).Nodup)
    (hd : ∀ m ∈ w, isLive m = true → m.deleting = false)
    (hperm : (V ++ K).Perm (w.filter isLive)) :
    ((terminateMachines o V w).filter isLive).length = K.length := by
  rw [live_terminate_eq, ← hperm.countP_eq, List.countP_append]
  rw [countP_kept o hperm (List.Nodup.sublist (List.Sublist.map _ List.filter_sublist) hn)
    (fun m hm => (List.mem_filter.1 hm).2)]
  have : V.countP (fun m => isLive (if m.name ∈ V.map Machine.name then
        prepareMachineForDeletion (o m.name) m else m)) = 0 := by
    rw [List.countP_eq_zero]
    intro m hm
    have hmn : m.name ∈ V.map Machine.name := List.mem_map.2 ⟨m, hm, rfl⟩
    simp only [hmn, if_true]
    have hmw := List.mem_filter.1 (hperm.subset (List.mem_append.2 (Or.inl hm)))
    rw [not_isLive_prepare_ok m (hd m hmw.1 hmw.2) _ (ho _)]
    simp
  omega

theorem names_terminate (o T w) : (terminateMachines o T w).map Machine.name = w.map Machine.name := by
  unfold terminateMachines
  rw [List.map_map]
  apply List.map_congr_left
  intro m _
  simp only [Function.comp]
  split
  · unfold prepareMachineForDeletion
    split
    · rfl
    · dsimp only; split <;> split <;> rfl
  · rfl

/-- split of `getMachinesToDelete` -/
theorem victims_split (srt : List Machine → List Machine) (hs : ∀ l, (srt l).Perm l) (L : List Machine) (d : Nat) :
    ∃ K, (getMachinesToDelete srt L d ++ K).Perm L := by
  unfold getMachinesToDelete
  split
  · exact ⟨(srt L).drop d, by rw [List.take_append_drop]; exact hs L⟩
  · exact ⟨L.drop d, by rw [List.take_append_drop]⟩

theorem victims_length (srt : List Machine → List Machine) (hs : ∀ l, (srt l).Perm l) (L : List Machine) (d : Nat)
    (hd : d ≤ L.length) : (getMachinesToDelete srt L d).length = d := by
  unfold getMachinesToDelete
  split
  · rw [List.length_take, (hs L).length_eq]; omega
  · rw [List.length_take]; omega

theorem live_not_deleting_terminate (o T w) (hd : ∀ m ∈ w, isLive m = true → m.deleting = false)
    (ho : ∀ n, (o n).statusOk = true) :
    ∀ m ∈ terminateMachines o T w, isLive m = true → m.deleting = false := by
  intro m hm hl
  unfold terminateMachines at hm
  obtain ⟨a, ha, rfl⟩ := List.mem_map.1 hm
  split at hl
  · rename_i hmem
    simp only [hmem, if_true]
    by_cases hda : a.deleting = true
    · have : prepareMachineForDeletion (o a.name) a = a := by simp [prepareMachineForDeletion, hda]
      rw [this] at hl ⊢
      exact hd a ha hl
    · have := not_isLive_prepare_ok a (by simpa using hda) (o a.name) (ho _)
      simp [this] at hl
  · rename_i hmem
    simp only [hmem, if_false]
    exact hd a ha hl

/-- the four branches of `manageReplicas` -/
theorem manageReplicas_cases (srt : List Machine → List Machine) (createOut : Nat → CreateOutcome)
    (all : List Machine) (ms : MSet) :
    ((all.filter isLive).length < ms.replicas ∧ (ms.freezeLabel = "True" ∧ ms.deleting = false) ∧
      manageReplicas srt createOut all ms =
        { staleTerminated := all.filter isStale, creation := none, victims := [], err := false })
    ∨ ((all.filter isLive).length < ms.replicas ∧ ¬ (ms.freezeLabel = "True" ∧ ms.deleting = false) ∧
      manageReplicas srt createOut all ms =
        { staleTerminated := all.filter isStale,
          creation := some (SlowStart.slowStartBatch (fun i => createFnOk (createOut i))
            (min (ms.replicas - (all.filter isLive).length) burstReplicas) 1),
          victims := [],
          err := (SlowStart.slowStartBatch (fun i => createFnOk (createOut i))
            (min (ms.replicas - (all.filter isLive).length) burstReplicas) 1).failed })
    ∨ (ms.replicas < (all.filter isLive).length ∧
      manageReplicas srt createOut all ms =
        { staleTerminated := all.filter isStale, creation := none,
          victims := getMachinesToDelete srt (all.filter isLive)
            (min ((all.filter isLive).length - ms.replicas) burstReplicas), err := false })
    ∨ (ms.replicas = (all.filter isLive).length ∧
      manageReplicas srt createOut all ms =
        { staleTerminated := all.filter isStale, creation := none, victims := [], err := false }) := by
  unfold manageReplicas
  dsimp only
  by_cases h1 : ((all.filter isLive).length : Int) - ms.replicas < 0
  · by_cases hz : ms.freezeLabel = "True" ∧ ms.deleting = false
    · left
      refine ⟨by omega, hz, ?_⟩
      rw [if_pos h1, if_pos (by simp [hz])]
    · right; left
      refine ⟨by omega, hz, ?_⟩
      rw [if_pos h1, if_neg (by simpa using hz)]
  · by_cases h2 : ((all.filter isLive).length : Int) - ms.replicas > 0
    · right; right; left
      refine ⟨by omega, ?_⟩
      rw [if_neg h1, if_pos h2]
    · right; right; right
      refine ⟨by omega, ?_⟩
      rw [if_neg h1, if_neg h2]

theorem staleTerminated_eq (srt createOut all ms) :
    (manageReplicas srt createOut all ms).staleTerminated = all.filter isStale := by
  rcases manageReplicas_cases srt createOut all ms with ⟨_, _, h⟩ | ⟨_, _, h⟩ | ⟨_, h⟩ | ⟨_, h⟩ <;> rw [h]

theorem victims_perm (srt createOut all ms) (hs : ∀ l, (srt l).Perm l) :
    ∃ K, ((manageReplicas srt createOut all ms).victims ++ K).Perm (all.filter isLive) := by
  rcases manageReplicas_cases srt createOut all ms with ⟨_, _, h⟩ | ⟨_, _, h⟩ | ⟨_, h⟩ | ⟨_, h⟩ <;> rw [h]
  · exact ⟨_, List.Perm.refl _⟩
  · exact ⟨_, List.Perm.refl _⟩
  · exact victims_split srt hs _ _
  · exact ⟨_, List.Perm.refl _⟩

end MCM.MachineSet
