import Verif.Model.DepStatus
import Verif.Props.Status
/-!
**C98** The status of a MachineDeployment keeps up with its machine sets and comes to rest.

Full statement: after a run whose write is accepted, the status shows the counts of the machine sets and lists exactly their failed machines
as the sets report them; and while nothing changes, no further status is written.

What is missing (`_partial`): the list of failed machines is compared by length, names and descriptions only, so it can stay out of date in
every other respect (`C98_details_false`), and a machine that is listed twice can hide another one (`C98_twice_false`). The status of a paused
deployment without failed machines is written again at every run (`C98_paused_false`), though never with a different content
(`C98_paused_rests`).
-/
namespace MCM.DepStatus
open MCM
open MCM.Status (Cond DSet DStatus DDep getCond setCond removeCond newCond replicaFailure replicaFailures progressing newISAvailable timedOutReason
  updatedReason complete isProgressing timedOut reportedDone progressConds)

/-! ### Specification -/

/-- The counts a status must show -/
structure Counts (d : FDep) (all : List FSet) (new : Option FSet) (s : FStatus) : Prop where
  observed : s.observed = d.generation
  replicas : s.replicas = (all.map (·.set.st.replicas)).sum
  updated : s.updated = (new.toList.map (·.set.st.replicas)).sum
  ready : s.ready = (all.map (·.set.st.ready)).sum
  available : s.available = (all.map (·.set.st.available)).sum
  unavailable : s.unavailable = max 0 ((all.map (·.set.spec)).sum - (all.map (·.set.st.available)).sum)

/-- A failed machine as one of the sets reports it -/
def Reported (all : List FSet) (m : Summary) : Prop := ∃ s ∈ all, ∃ l, s.failed = some l ∧ m ∈ l

/-- The names and descriptions of the machines -/
def brief (l : List Summary) : List (String × String) := l.map fun m => (m.name, m.description)

/-! ### Lemmas -/

theorem mem_summaries (all : List FSet) (m : Summary) : m ∈ summaries all ↔ Reported all m := by
  unfold summaries Reported
  rw [List.mem_flatMap]
  constructor
  · rintro ⟨s, hs, hm⟩
    cases h : s.failed with
    | none => rw [h] at hm; simp at hm
    | some l => rw [h] at hm; exact ⟨s, hs, l, h, hm⟩
  · rintro ⟨s, hs, l, hl, hm⟩
    exact ⟨s, hs, by rw [hl]; exact hm⟩

theorem stored_listed (s : FStatus) : (stored s).listed = s.listed := by
  unfold stored FStatus.listed
  dsimp only
  split
  · rename_i h; rw [h]; rfl
  · rfl

theorem counts_of_plain (now : Int) (d : FDep) (all : List FSet) (new : Option FSet) :
    Counts d all new (fresh now d all new) := by
  have e1 : ∀ f : DSet → Int, (∀ s : FSet, f s.plain = f s.set) → (all.map FSet.plain).map f = all.map fun s => f s.set := by
    intro f hf
    rw [List.map_map]
    exact List.map_congr_left fun s _ => hf s
  have h1 := e1 (·.st.replicas) fun _ => rfl
  have h2 := e1 (·.st.ready) fun _ => rfl
  have h3 := e1 (·.st.available) fun _ => rfl
  have h4 := e1 (·.spec) fun _ => rfl
  refine ⟨rfl, ?_, ?_, ?_, ?_, ?_⟩
  · exact congrArg List.sum h1
  · cases new <;> rfl
  · exact congrArg List.sum h2
  · exact congrArg List.sum h3
  · show (if _ < _ then _ else _) = _
    rw [h3, h4]
    split <;> omega

theorem counts_rollout (now : Int) (d : FDep) (all : List FSet) (new : Option FSet) :
    Counts d all new (rollout now d all new) :=
  ⟨(counts_of_plain now d all new).1, (counts_of_plain now d all new).2, (counts_of_plain now d all new).3, (counts_of_plain now d all new).4,
    (counts_of_plain now d all new).5, (counts_of_plain now d all new).6⟩

/-- The comparison spelt out -/
theorem updateRequired_false (old new : FStatus) : updateRequired old new = false ↔
    old.available = new.available ∧ old.listed.length = new.listed.length ∧ old.observed = new.observed ∧ old.ready = new.ready ∧
    old.replicas = new.replicas ∧ old.updated = new.updated ∧ old.unavailable = new.unavailable ∧ old.conds = new.conds ∧
    (∀ m ∈ new.listed, ∃ o ∈ old.listed, o.name = m.name ∧ o.description = m.description) := by
  unfold updateRequired sameFailure
  simp only [Bool.not_eq_false', Bool.and_eq_true, decide_eq_true_eq, List.all_eq_true, List.any_eq_true]
  constructor
  · rintro ⟨⟨⟨⟨⟨⟨⟨⟨h1, h2⟩, h3⟩, h4⟩, h5⟩, h6⟩, h7⟩, h8⟩, h9⟩
    exact ⟨h1, h2, h3, h4, h5, h6, h7, h8, h9⟩
  · rintro ⟨h1, h2, h3, h4, h5, h6, h7, h8, h9⟩
    exact ⟨⟨⟨⟨⟨⟨⟨⟨h1, h2⟩, h3⟩, h4⟩, h5⟩, h6⟩, h7⟩, h8⟩, h9⟩

/-- Distinct elements, all of them in a list that is no longer: the lists have the same elements. -/
theorem mem_of_nodup_length {α : Type} [DecidableEq α] : ∀ (l k : List α), l.Nodup → (∀ x ∈ l, x ∈ k) → k.length ≤ l.length → ∀ x ∈ k, x ∈ l
  | [], k, _, _, hl, x, hx => by
    cases k with
    | nil => exact hx
    | cons a k => simp at hl
  | a :: l, k, hn, hs, hl, x, hx => by
    rw [List.nodup_cons] at hn
    by_cases hxa : x = a
    · exact hxa ▸ List.mem_cons_self
    · have hak : a ∈ k := hs a List.mem_cons_self
      have := mem_of_nodup_length l (k.erase a) hn.2
        (fun y hy => (List.mem_erase_of_ne (fun h : y = a => hn.1 (h ▸ hy))).2 (hs y (List.mem_cons_of_mem _ hy)))
        (by rw [List.length_erase_of_mem hak]; simp only [List.length_cons] at hl; omega)
        x ((List.mem_erase_of_ne hxa).2 hx)
      exact List.mem_cons_of_mem _ this

/-! ### The status keeps up -/

/-- **C98**: after a rollout run whose write (if any) is accepted, the status shows the current counts; every failed machine reported by a set
is listed with its description; and if no two failed machines share name and description, nothing else is listed. -/
theorem C98_current_partial (now : Int) (d : FDep) (all : List FSet) (new : Option FSet) :
    let s := (d.after (rolloutRun now d all new)).status
    Counts d all new s ∧
    (∀ m, Reported all m → (m.name, m.description) ∈ brief s.listed) ∧
    s.listed.length = (summaries all).length ∧
    ((brief (summaries all)).Nodup → ∀ o ∈ s.listed, ∃ m, Reported all m ∧ m.name = o.name ∧ m.description = o.description) := by
  intro s
  have hc := counts_rollout now d all new
  have hkey : Counts d all new s ∧ s.listed.length = (summaries all).length ∧
      (∀ m ∈ summaries all, ∃ o ∈ s.listed, o.name = m.name ∧ o.description = m.description) := by
    show Counts d all new (d.after (rolloutRun now d all new)).status ∧ (d.after (rolloutRun now d all new)).status.listed.length = _ ∧
      (∀ m ∈ summaries all, ∃ o ∈ (d.after (rolloutRun now d all new)).status.listed, o.name = m.name ∧ o.description = m.description)
    unfold rolloutRun
    by_cases h : updateRequired d.status (rollout now d all new) = true
    · rw [if_pos h]
      refine ⟨⟨hc.1, hc.2, hc.3, hc.4, hc.5, hc.6⟩, ?_, ?_⟩
      · show (stored _).listed.length = _
        rw [stored_listed]; rfl
      · intro m hm
        exact ⟨m, by show m ∈ (stored _).listed; rw [stored_listed]; exact hm, rfl, rfl⟩
    · rw [if_neg h]
      have h' := (updateRequired_false _ _).1 (Bool.not_eq_true _ ▸ h)
      obtain ⟨h1, h2, h3, h4, h5, h6, h7, h8, h9⟩ := h'
      exact ⟨⟨h3.trans hc.1, h5.trans hc.2, h6.trans hc.3, h4.trans hc.4, h1.trans hc.5, h7.trans hc.6⟩, h2, h9⟩
  obtain ⟨k1, k2, k3⟩ := hkey
  refine ⟨k1, ?_, k2, ?_⟩
  · intro m hm
    obtain ⟨o, ho, h1, h2⟩ := k3 m ((mem_summaries all m).2 hm)
    exact List.mem_map.2 ⟨o, ho, by rw [h1, h2]⟩
  · intro hn o ho
    have := mem_of_nodup_length (brief (summaries all)) (brief s.listed) hn
      (fun x hx => by
        obtain ⟨m, hm, rfl⟩ := List.mem_map.1 hx
        obtain ⟨o, ho, h1, h2⟩ := k3 m hm
        exact List.mem_map.2 ⟨o, ho, by rw [h1, h2]⟩)
      (by simp only [brief, List.length_map]; omega)
      (o.name, o.description) (List.mem_map.2 ⟨o, ho, rfl⟩)
    obtain ⟨m, hm, he⟩ := List.mem_map.1 this
    exact ⟨m, (mem_summaries all m).1 hm, (Prod.mk.inj he).1, (Prod.mk.inj he).2⟩

/-- **C98** for deployments that are paused or being scaled: the status is then exactly the one calculated from the sets. -/
theorem C98_current_paused (now : Int) (d : FDep) (all : List FSet) (new : Option FSet) :
    let s := (d.after (statusRun now d all new)).status
    Counts d all new s ∧ s.listed = summaries all := by
  intro s
  have hc := counts_of_plain now d all new
  show Counts d all new (d.after (statusRun now d all new)).status ∧ (d.after (statusRun now d all new)).status.listed = _
  unfold statusRun
  by_cases h : d.status = fresh now d all new
  · rw [if_pos h]
    show Counts d all new d.status ∧ d.status.listed = _
    exact ⟨by rw [h]; exact hc, by rw [h]; rfl⟩
  · rw [if_neg h]
    exact ⟨⟨hc.1, hc.2, hc.3, hc.4, hc.5, hc.6⟩, stored_listed _⟩

/-! ### The status comes to rest -/

/-- The list shows a condition with this status and reason -/
def Has (cs : List Cond) (t st rs : String) : Prop := ∃ c, getCond cs t = some c ∧ c.status = st ∧ c.reason = rs

theorem set_noop (cs : List Cond) (c : Cond) (h : Has cs c.type c.status c.reason) : setCond cs c = cs := by
  obtain ⟨k, hk, hs⟩ := h
  unfold setCond
  rw [hk]
  exact if_pos hs

theorem has_set (cs : List Cond) (c : Cond) : Has (setCond cs c) c.type c.status c.reason := by
  rcases Status.getCond_set_self cs c with ⟨h, k, hk, hs⟩ | ⟨tr, h⟩
  · exact ⟨k, h.trans hk, hs⟩
  · exact ⟨_, h, rfl, rfl⟩

theorem has_congr {cs cs' : List Cond} {t st rs : String} (he : getCond cs' t = getCond cs t) (h : Has cs t st rs) : Has cs' t st rs := by
  obtain ⟨c, hc, hs⟩ := h
  exact ⟨c, he.trans hc, hs⟩

theorem remove_noop (cs : List Cond) (t : String) (h : getCond cs t = none) : removeCond cs t = cs := by
  unfold removeCond
  rw [List.filter_eq_self]
  intro c hc
  have := (List.find?_eq_none.1 h) c hc
  simpa using this

theorem getCond_removed (cs : List Cond) (t : String) : getCond (removeCond cs t) t = none := by
  rw [Status.getCond_eq, Status.removeCond_ofType]; simp

theorem failure_type {all : List DSet} {new : Option DSet} {c : Cond} {l : List Cond} (h : replicaFailures all new = c :: l) :
    c.type = replicaFailure := by
  have hc : c ∈ replicaFailures all new := by rw [h]; simp
  unfold replicaFailures at hc
  dsimp only at hc
  split at hc <;>
  · obtain ⟨s, _, hs⟩ := List.mem_flatMap.1 hc
    obtain ⟨x, hx, rfl⟩ := List.mem_map.1 hs
    simpa using (List.mem_filter.1 hx).2

theorem progressConds_other (now : Int) (d : DDep) (n : DStatus) (t : String) (h : t ≠ progressing) :
    getCond (progressConds now d n) t = getCond n.conds t := by
  unfold progressConds
  dsimp only
  split
  · rfl
  split
  · exact Status.getCond_set_other _ _ _ h
  split
  · cases getCond d.status.conds progressing with
    | none => exact Status.getCond_set_other _ _ _ h
    | some k =>
      dsimp only
      split
      · exact (Status.getCond_set_other _ _ _ h).trans (Status.getCond_remove_other _ _ _ h)
      · exact (Status.getCond_set_other _ _ _ h).trans (Status.getCond_remove_other _ _ _ h)
  split
  · exact Status.getCond_set_other _ _ _ h
  · rfl

/-- The last step of `rolloutStatus` -/
def withFailure (cs : List Cond) (all : List DSet) (new : Option DSet) : List Cond :=
  match replicaFailures all new with
  | c :: _ => setCond cs c
  | [] => removeCond cs replicaFailure

theorem rollout_conds (now : Int) (d : DDep) (all : List DSet) (new : Option DSet) : (Status.rolloutStatus now d all new).conds =
    withFailure (progressConds now d (Status.calcDep now d all new)) all new := rfl

theorem withFailure_other (cs : List Cond) (all : List DSet) (new : Option DSet) (t : String) (h : t ≠ replicaFailure) :
    getCond (withFailure cs all new) t = getCond cs t := by
  unfold withFailure
  cases hf : replicaFailures all new with
  | nil => exact Status.getCond_remove_other _ _ _ h
  | cons c l => exact Status.getCond_set_other _ _ _ (by rw [failure_type hf]; exact h)

/-- The failures of the sets are shown -/
def Shown (cs : List Cond) (all : List DSet) (new : Option DSet) : Prop :=
  match replicaFailures all new with
  | c :: _ => Has cs replicaFailure c.status c.reason
  | [] => getCond cs replicaFailure = none

theorem shown_after (cs : List Cond) (all : List DSet) (new : Option DSet) : Shown (withFailure cs all new) all new := by
  unfold Shown withFailure
  cases hf : replicaFailures all new with
  | nil => exact getCond_removed _ _
  | cons c l =>
    have := has_set cs c
    rw [failure_type hf] at this
    exact this

theorem shown_noop (cs : List Cond) (all : List DSet) (new : Option DSet) (h : Shown cs all new) : withFailure cs all new = cs := by
  unfold Shown at h
  unfold withFailure
  cases hf : replicaFailures all new with
  | nil => rw [hf] at h; exact remove_noop _ _ h
  | cons c l =>
    rw [hf] at h
    exact set_noop _ _ (by rw [failure_type hf]; exact h)

theorem shown_congr {cs cs' : List Cond} {all : List DSet} {new : Option DSet} (he : getCond cs' replicaFailure = getCond cs replicaFailure)
    (h : Shown cs all new) : Shown cs' all new := by
  unfold Shown at h ⊢
  cases hf : replicaFailures all new with
  | nil => rw [hf] at h; exact he.trans h
  | cons c l => rw [hf] at h; exact has_congr he h

/-- The Available condition that belongs to the deployment -/
def availConds (d : DDep) (all : List DSet) (new : Option DSet) (cs : List Cond) : Prop :=
  if (Status.calcDep 0 d all new).available ≥ d.dep.replicas - Rolling.maxUnavailable d.dep then
    Has cs "Available" "True" "MinimumReplicasAvailable"
  else Has cs "Available" "False" "MinimumReplicasUnavailable"

theorem avail_after (now : Int) (d : DDep) (all : List DSet) (new : Option DSet) :
    availConds d all new (Status.calcDep now d all new).conds := by
  unfold availConds
  have hc : (Status.calcDep now d all new).conds =
      if (Status.calcDep 0 d all new).available ≥ d.dep.replicas - Rolling.maxUnavailable d.dep then
        setCond d.status.conds (newCond now "Available" "True" "MinimumReplicasAvailable")
      else setCond d.status.conds (newCond now "Available" "False" "MinimumReplicasUnavailable") := rfl
  rw [hc]
  split
  · exact has_set _ _
  · exact has_set _ _

theorem avail_noop (now : Int) (d : DDep) (all : List DSet) (new : Option DSet) (h : availConds d all new d.status.conds) :
    (Status.calcDep now d all new).conds = d.status.conds := by
  unfold availConds at h
  have hc : (Status.calcDep now d all new).conds =
      if (Status.calcDep 0 d all new).available ≥ d.dep.replicas - Rolling.maxUnavailable d.dep then
        setCond d.status.conds (newCond now "Available" "True" "MinimumReplicasAvailable")
      else setCond d.status.conds (newCond now "Available" "False" "MinimumReplicasUnavailable") := rfl
  rw [hc]
  split
  · rename_i hh; rw [if_pos hh] at h; exact set_noop _ _ h
  · rename_i hh; rw [if_neg hh] at h; exact set_noop _ _ h

theorem avail_congr {d : DDep} {all : List DSet} {new : Option DSet} {cs cs' : List Cond}
    (he : getCond cs' "Available" = getCond cs "Available") (h : availConds d all new cs) : availConds d all new cs' := by
  unfold availConds at h ⊢
  split
  · rename_i hh; rw [if_pos hh] at h; exact has_congr he h
  · rename_i hh; rw [if_neg hh] at h; exact has_congr he h

/-- The status after a run -/
structure Rest (d : FDep) (all : List FSet) (new : Option FSet) : Prop where
  counts : Counts d all new d.status
  len : d.status.listed.length = (summaries all).length
  found : ∀ m ∈ summaries all, ∃ o ∈ d.status.listed, o.name = m.name ∧ o.description = m.description
  avail : availConds d.plain (all.map FSet.plain) (new.map FSet.plain) d.status.conds
  shown : Shown d.status.conds (all.map FSet.plain) (new.map FSet.plain)
  done : complete d.plain (Status.calcDep 0 d.plain (all.map FSet.plain) (new.map FSet.plain)) = true →
    reportedDone (getCond d.status.conds progressing) = true

theorem complete_eq {d : DDep} {n : DStatus} (h : complete d n = true) : n.replicas = n.updated := by
  unfold complete at h
  simp only [Bool.and_eq_true, decide_eq_true_eq] at h
  omega

/-- Every status calculated for a rollout shows the Available condition, the failures and completion. -/
theorem rollout_shows (now : Int) (d : DDep) (all : List DSet) (new : Option DSet) :
    availConds d all new (Status.rolloutStatus now d all new).conds ∧ Shown (Status.rolloutStatus now d all new).conds all new ∧
    (complete d (Status.calcDep 0 d all new) = true → reportedDone (getCond (Status.rolloutStatus now d all new).conds progressing) = true) := by
  refine ⟨?_, ?_, ?_⟩
  · apply avail_congr _ (avail_after now d all new)
    rw [rollout_conds, withFailure_other _ _ _ _ (by decide +kernel), progressConds_other _ _ _ _ (by decide +kernel)]
  · rw [rollout_conds]; exact shown_after _ _ _
  · intro h
    have h' : complete d (Status.calcDep now d all new) = true := h
    rw [Status.rollout_progressing]
    unfold progressConds
    dsimp only
    split
    · rename_i hd
      rw [Bool.and_eq_true] at hd
      rw [Status.calcDep_progressing]; exact hd.2
    · obtain ⟨c, hc, _, hr⟩ := has_set (Status.calcDep now d all new).conds (newCond now progressing "True" newISAvailable)
      have hc' : getCond (setCond (Status.calcDep now d all new).conds (newCond now progressing "True" newISAvailable)) progressing = some c := hc
      rw [hc']
      have hr' : c.reason = newISAvailable := hr
      simpa [reportedDone] using hr'

/-- After any run the status is one the sets account for. -/
theorem rest_after (now : Int) (d : FDep) (all : List FSet) (new : Option FSet) : Rest (d.after (rolloutRun now d all new)) all new := by
  have hcur := C98_current_partial now d all new
  dsimp only at hcur
  obtain ⟨s1, s2, s3⟩ := rollout_shows now d.plain (all.map FSet.plain) (new.map FSet.plain)
  unfold rolloutRun at hcur ⊢
  by_cases h : updateRequired d.status (rollout now d all new) = true
  · rw [if_pos h] at hcur ⊢
    refine ⟨⟨hcur.1.1, hcur.1.2, hcur.1.3, hcur.1.4, hcur.1.5, hcur.1.6⟩, hcur.2.2.1, ?_, s1, s2, s3⟩
    intro m hm
    exact ⟨m, by show m ∈ (stored _).listed; rw [stored_listed]; exact hm, rfl, rfl⟩
  · rw [if_neg h] at hcur ⊢
    obtain ⟨_, _, _, _, _, _, _, h8, h9⟩ := (updateRequired_false _ _).1 (Bool.not_eq_true _ ▸ h)
    have h8' : d.status.conds = (Status.rolloutStatus now d.plain (all.map FSet.plain) (new.map FSet.plain)).conds := h8
    refine ⟨hcur.1, hcur.2.2.1, h9, ?_, ?_, ?_⟩
    · show availConds _ _ _ d.status.conds; rw [h8']; exact s1
    · show Shown d.status.conds _ _; rw [h8']; exact s2
    · intro hh; show reportedDone (getCond d.status.conds progressing) = true; rw [h8']; exact s3 hh

/-- No progress against its own status -/
theorem rest_not_progressing {d : FDep} {all : List FSet} {new : Option FSet} (h : Rest d all new) (now : Int) :
    isProgressing d.plain.status (Status.calcDep now d.plain (all.map FSet.plain) (new.map FSet.plain)) = false := by
  have hc := counts_of_plain now d all new
  have e1 : (Status.calcDep now d.plain (all.map FSet.plain) (new.map FSet.plain)).updated = d.status.updated := hc.3.trans h.counts.3.symm
  have e2 : (Status.calcDep now d.plain (all.map FSet.plain) (new.map FSet.plain)).replicas = d.status.replicas := hc.2.trans h.counts.2.symm
  have e3 : (Status.calcDep now d.plain (all.map FSet.plain) (new.map FSet.plain)).ready = d.status.ready := hc.4.trans h.counts.4.symm
  have e4 : (Status.calcDep now d.plain (all.map FSet.plain) (new.map FSet.plain)).available = d.status.available := hc.5.trans h.counts.5.symm
  unfold isProgressing
  rw [e1, e2, e3, e4]
  show (decide (d.status.updated > d.status.updated) || _ || _ || _) = false
  simp [FDep.plain, FStatus.plain]

/-- The conditions of the next run: the same, or the deadline has passed. -/
theorem rest_conds {d : FDep} {all : List FSet} {new : Option FSet} (h : Rest d all new) (now : Int) :
    (rollout now d all new).conds = d.status.conds ∨
    ((rollout now d all new).conds = setCond d.status.conds (newCond now progressing "False" timedOutReason)) := by
  have ha : (Status.calcDep now d.plain (all.map FSet.plain) (new.map FSet.plain)).conds = d.status.conds :=
    avail_noop now d.plain _ _ h.avail
  have hp := rest_not_progressing h now
  show (Status.rolloutStatus now d.plain (all.map FSet.plain) (new.map FSet.plain)).conds = _ ∨ (Status.rolloutStatus now d.plain (all.map FSet.plain) (new.map FSet.plain)).conds = _
  rw [rollout_conds]
  unfold progressConds
  dsimp only
  rw [hp, ha]
  split
  · exact Or.inl (shown_noop _ _ _ h.shown)
  rename_i hnd
  have hnc : ¬ complete d.plain (Status.calcDep now d.plain (all.map FSet.plain) (new.map FSet.plain)) = true := by
    intro hc
    apply hnd
    rw [Bool.and_eq_true, decide_eq_true_eq]
    exact ⟨complete_eq hc, h.done hc⟩
  rw [if_neg hnc, if_neg (by simp)]
  split
  · refine Or.inr (shown_noop _ _ _ (shown_congr ?_ h.shown))
    exact Status.getCond_set_other _ _ _ (show replicaFailure ≠ progressing by decide +kernel)
  · exact Or.inl (shown_noop _ _ _ h.shown)

/-- A run writes only if the conditions change. -/
theorem rest_quiet {d : FDep} {all : List FSet} {new : Option FSet} (h : Rest d all new) (now : Int)
    (hc : (rollout now d all new).conds = d.status.conds) : rolloutRun now d all new = none := by
  have hk := counts_rollout now d all new
  unfold rolloutRun
  rw [(updateRequired_false d.status (rollout now d all new)).2
    ⟨h.counts.5.trans hk.5.symm, h.len, h.counts.1.trans hk.1.symm, h.counts.4.trans hk.4.symm, h.counts.2.trans hk.2.symm,
      h.counts.3.trans hk.3.symm, h.counts.6.trans hk.6.symm, hc.symm, h.found⟩]
  rfl

/-- Once the deadline is reported as passed nothing changes any more. -/
theorem quiet_timed_out {all : List FSet} {new : Option FSet} : ∀ (ts : List Int) (d : FDep), Rest d all new →
    Has d.status.conds progressing "False" timedOutReason → (runs all new ts d).2 = 0 ∧ (runs all new ts d).1 = d
  | [], _, _, _ => ⟨rfl, rfl⟩
  | t :: ts, d, h, ht => by
    have hc : (rollout t d all new).conds = d.status.conds := by
      rcases rest_conds h t with hc | hc
      · exact hc
      · rw [hc]; exact set_noop _ _ ht
    have hq := rest_quiet h t hc
    have ih := quiet_timed_out ts d h ht
    unfold runs
    rw [hq]
    exact ⟨by simpa [FDep.after] using ih.1, ih.2⟩

theorem quiet_rest {all : List FSet} {new : Option FSet} : ∀ (ts : List Int) (d : FDep), Rest d all new → (runs all new ts d).2 ≤ 1
  | [], _, _ => Nat.zero_le 1
  | t :: ts, d, h => by
    by_cases hw : rolloutRun t d all new = none
    · have ih := quiet_rest ts d h
      unfold runs
      rw [hw]
      simpa [FDep.after] using ih
    · have hr := rest_after t d all new
      have hne : (rollout t d all new).conds ≠ d.status.conds := fun hc => hw (rest_quiet h t hc)
      have hc := (rest_conds h t).resolve_left hne
      have he : rolloutRun t d all new = some (rollout t d all new) := by
        unfold rolloutRun at hw ⊢
        split
        · rfl
        · rename_i hh; rw [if_neg hh] at hw; exact absurd rfl hw
      rw [he] at hr
      have ht : Has (d.after (some (rollout t d all new))).status.conds progressing "False" timedOutReason := by
        show Has (rollout t d all new).conds _ _ _
        rw [hc]
        exact has_set d.status.conds (newCond t progressing "False" timedOutReason)
      have := quiet_timed_out ts _ hr ht
      unfold runs
      rw [he]
      dsimp only
      rw [this.1]
      simp

/-- **C98**: while the machine sets and the specification stay the same, the runs of the controller - however many, at whatever times -
write the status at most twice: once to catch up and once more when the progress deadline has passed. -/
theorem C98_rests (all : List FSet) (new : Option FSet) (ts : List Int) (d : FDep) : (runs all new ts d).2 ≤ 2 := by
  cases ts with
  | nil => exact Nat.zero_le 2
  | cons t ts =>
    have := quiet_rest ts _ (rest_after t d all new)
    unfold runs
    dsimp only
    split <;> omega

theorem rest_quiet_no_deadline {d : FDep} {all : List FSet} {new : Option FSet} (h : Rest d all new) (hd : d.deadline = none) (t : Int) :
    rolloutRun t d all new = none := by
  apply rest_quiet h
  have hto : timedOut t d.plain (Status.calcDep t d.plain (all.map FSet.plain) (new.map FSet.plain)) = false := by
    have hd' : d.plain.deadline = none := hd
    unfold timedOut; rw [hd']
  have ha : (Status.calcDep t d.plain (all.map FSet.plain) (new.map FSet.plain)).conds = d.status.conds :=
    avail_noop t d.plain _ _ h.avail
  show (Status.rolloutStatus t d.plain (all.map FSet.plain) (new.map FSet.plain)).conds = _
  rw [rollout_conds]
  unfold progressConds
  dsimp only
  rw [rest_not_progressing h t, hto, ha]
  split
  · exact shown_noop _ _ _ h.shown
  rename_i hnd
  rw [if_neg, if_neg (by simp), if_neg (by simp)]
  · exact shown_noop _ _ _ h.shown
  · intro hc
    apply hnd
    rw [Bool.and_eq_true, decide_eq_true_eq]
    exact ⟨complete_eq hc, h.done hc⟩

/-- **C98**, without a progress deadline a single write is enough. -/
theorem C98_rests_no_deadline (all : List FSet) (new : Option FSet) (ts : List Int) (d : FDep) (hd : d.deadline = none) :
    (runs all new ts d).2 ≤ 1 := by
  have hq : ∀ (ts : List Int) (d : FDep), d.deadline = none → Rest d all new → (runs all new ts d).2 = 0 := by
    intro ts
    induction ts with
    | nil => intros; rfl
    | cons t ts ih =>
      intro d hd h
      unfold runs
      rw [rest_quiet_no_deadline h hd t]
      simpa [FDep.after] using ih d hd h
  cases ts with
  | nil => exact Nat.zero_le 1
  | cons t ts =>
    have hd' : (d.after (rolloutRun t d all new)).deadline = none := by
      cases rolloutRun t d all new <;> exact hd
    have := hq ts _ hd' (rest_after t d all new)
    unfold runs
    dsimp only
    rw [this]
    split <;> simp

/-- **C98**: in a paused deployment (or one being scaled) the content of the status does not change any more after one accepted run while
the sets stay the same. -/
theorem C98_paused_rests (t u : Int) (d : FDep) (all : List FSet) (new : Option FSet) :
    let e := d.after (statusRun t d all new)
    (e.after (statusRun u e all new)).status.plain = e.status.plain ∧ (e.after (statusRun u e all new)).status.listed = e.status.listed ∧
    (statusRun t d all new ≠ none → (e.after (statusRun u e all new)).status = e.status) := by
  intro e
  have key : ∀ (x : FDep) (v : Int), availConds x.plain (all.map FSet.plain) (new.map FSet.plain) x.status.conds →
      Counts x all new x.status → x.status.listed = summaries all → (∃ s, x.status = stored s) →
      (x.after (statusRun v x all new)).status = x.status := by
    intro x v ha hc hl hs
    unfold statusRun
    by_cases h : x.status = fresh v x all new
    · rw [if_pos h]; rfl
    · rw [if_neg h]
      have hk := counts_of_plain v x all new
      have hcs : (fresh v x all new).conds = x.status.conds := avail_noop v x.plain _ _ ha
      have hf : (stored (fresh v x all new)).failed = x.status.failed := by
        obtain ⟨s, hs⟩ := hs
        have h1 : x.status.failed = if s.failed = some [] then none else s.failed := by rw [hs]; rfl
        show (if some (summaries all) = some [] then none else some (summaries all)) = _
        rw [← hl]
        unfold FStatus.listed
        rw [h1]
        cases hsf : s.failed with
        | none => simp
        | some l =>
          cases l with
          | nil => simp
          | cons a l => simp
      show stored (fresh v x all new) = x.status
      rw [FStatus.mk.injEq]
      exact ⟨hk.1.trans hc.1.symm, hk.2.trans hc.2.symm, hk.3.trans hc.3.symm, hk.4.trans hc.4.symm, hk.5.trans hc.5.symm, hk.6.trans hc.6.symm,
        hcs, hf⟩
  by_cases hw : statusRun t d all new = none
  · have he : e = d := by show d.after (statusRun t d all new) = d; rw [hw]; rfl
    have hd : d.status = fresh t d all new := by
      unfold statusRun at hw
      split at hw
      · assumption
      · exact absurd hw (by simp)
    have hcu := C98_current_paused u d all new
    have ha : availConds d.plain (all.map FSet.plain) (new.map FSet.plain) d.status.conds := by
      rw [hd]; exact avail_after t d.plain (all.map FSet.plain) (new.map FSet.plain)
    have hcs : (fresh u d all new).conds = d.status.conds := avail_noop u d.plain _ _ ha
    have hsame : fresh u d all new = d.status := by
      have hk := counts_of_plain u d all new
      have hc := counts_of_plain t d all new
      rw [← hd] at hc
      rw [FStatus.mk.injEq]
      exact ⟨hk.1.trans hc.1.symm, hk.2.trans hc.2.symm, hk.3.trans hc.3.symm, hk.4.trans hc.4.symm, hk.5.trans hc.5.symm, hk.6.trans hc.6.symm,
        hcs, (congrArg FStatus.failed hd).symm⟩
    have hq : statusRun u d all new = none := by
      unfold statusRun; rw [if_pos hsame.symm]
    rw [he, hq]
    exact ⟨rfl, rfl, fun _ => rfl⟩
  · have hs : ∃ s, e.status = stored s := by
      show ∃ s, (d.after (statusRun t d all new)).status = stored s
      cases hx : statusRun t d all new with
      | none => exact absurd hx hw
      | some n => exact ⟨n, rfl⟩
    have ha : availConds e.plain (all.map FSet.plain) (new.map FSet.plain) e.status.conds := by
      show availConds (d.after (statusRun t d all new)).plain _ _ (d.after (statusRun t d all new)).status.conds
      unfold statusRun
      by_cases h : d.status = fresh t d all new
      · rw [if_pos h]
        show availConds d.plain _ _ d.status.conds
        rw [h]
        exact avail_after t d.plain _ _
      · rw [if_neg h]
        exact avail_after t d.plain (all.map FSet.plain) (new.map FSet.plain)
    have hcu := C98_current_paused t d all new
    have hg : Counts e all new e.status := by
      have := hcu.1
      refine ⟨this.1.trans ?_, this.2, this.3, this.4, this.5, this.6⟩
      show d.generation = (d.after (statusRun t d all new)).generation
      cases statusRun t d all new <;> rfl
    have := key e u ha hg hcu.2 hs
    rw [this]
    exact ⟨rfl, rfl, fun _ => rfl⟩

/-! ### What does not hold -/

/-- **C98 is false as stated** for paused deployments: without failed machines the status is written again at every run, because the calculated
list is empty and the stored one is nil. -/
theorem C98_paused_false (now : Int) (d : FDep) (all : List FSet) (new : Option FSet) (s : FStatus) (hs : d.status = stored s)
    (hf : ∀ m, ¬ Reported all m) : statusRun now d all new ≠ none := by
  have he : summaries all = [] := by
    rw [List.eq_nil_iff_forall_not_mem]
    exact fun m hm => hf m ((mem_summaries all m).1 hm)
  intro h
  unfold statusRun at h
  split at h
  · rename_i hd
    have h1 : d.status.failed = some (summaries all) := by rw [hd]; rfl
    rw [he, hs] at h1
    unfold stored at h1
    dsimp only at h1
    split at h1
    · exact absurd h1 (by simp)
    · rename_i hh; exact hh h1
  · exact absurd h (by simp)

/-- A set with one replica that has failed -/
def failing (m : List Summary) : FSet := { set := { name := "a", spec := 1, st := { replicas := 1 } }, failed := some m }

def shownConds : List Cond := [newCond 0 "Available" "False" "MinimumReplicasUnavailable"]

def depWith (l : List Summary) (cs : List Cond) : FDep :=
  { dep := { replicas := 1, maxSurge := .some (.int 1), maxUnavailable := .some (.int 0) }, generation := 1, status := { observed := 1, replicas := 1, updated := 1, unavailable := 1, conds := cs, failed := some l } }

theorem depWith_rest (l : List Summary) (all : List FSet) (m : List Summary)
    (hr : (all.map (·.set.st.replicas)).sum = 1) (hy : (all.map (·.set.st.ready)).sum = 0)
    (ha : (all.map (·.set.st.available)).sum = 0) (hs : (all.map (·.set.spec)).sum = 1) (hlen : l.length = (summaries all).length)
    (hf : ∀ m ∈ summaries all, ∃ o ∈ l, o.name = m.name ∧ o.description = m.description)
    (hfail : replicaFailures (all.map FSet.plain) (some (failing m).plain) = []) :
    Rest (depWith l shownConds) all (some (failing m)) := by
  have hc := counts_of_plain 0 (depWith l shownConds) all (some (failing m))
  have hav : (Status.calcDep 0 (depWith l shownConds).plain (all.map FSet.plain) ((some (failing m)).map FSet.plain)).available = 0 :=
    hc.5.trans ha
  refine ⟨⟨rfl, hr.symm, rfl, hy.symm, ha.symm, ?_⟩, hlen, hf, ?_, ?_, ?_⟩
  · rw [ha, hs]; rfl
  · unfold availConds
    have hno : ¬ (0 : Int) ≥ 1 - Rolling.maxUnavailable { replicas := 1, maxSurge := some (.int 1), maxUnavailable := some (.int 0) } := by
      decide +kernel
    have hno' : ¬ (0 : Int) ≥ (depWith l shownConds).plain.dep.replicas - Rolling.maxUnavailable (depWith l shownConds).plain.dep := hno
    rw [hav, if_neg hno']
    exact ⟨newCond 0 "Available" "False" "MinimumReplicasUnavailable", rfl, rfl, rfl⟩
  · unfold Shown
    have hfail' : replicaFailures (all.map FSet.plain) ((some (failing m)).map FSet.plain) = [] := hfail
    rw [hfail']
    show getCond shownConds replicaFailure = none
    decide +kernel
  · intro h
    unfold complete at h
    rw [hav] at h
    simp [FDep.plain, depWith] at h

/-- **C98 is false as stated**: the status names an old provider id, owner and state, and no run ever corrects it. -/
theorem C98_details_false : ∃ (d : FDep) (all : List FSet) (new : Option FSet) (o m : Summary),
    d.status.listed = [o] ∧ summaries all = [m] ∧ o.name = m.name ∧ o.owner ≠ m.owner ∧ o.providerID ≠ m.providerID ∧ o.state ≠ m.state ∧
    ∀ now, rolloutRun now d all new = none :=
  ⟨depWith [{ name := "m", owner := "b", state := "Processing" }] shownConds, [failing [{ name := "m", owner := "a", providerID := "p" }]],
    some (failing [{ name := "m", owner := "a", providerID := "p" }]), { name := "m", owner := "b", state := "Processing" },
    { name := "m", owner := "a", providerID := "p" }, rfl, rfl, rfl, by decide, by decide, by decide,
    fun now => rest_quiet_no_deadline (depWith_rest _ _ _ rfl rfl rfl rfl rfl (by decide +kernel) (by decide +kernel)) rfl now⟩

/-- **C98 is false as stated**: a machine that two sets report at once hides the machine that is no longer failed. -/
theorem C98_twice_false : ∃ (d : FDep) (all : List FSet) (new : Option FSet) (o : Summary),
    o ∈ d.status.listed ∧ (∀ m, Reported all m → m.name ≠ o.name) ∧ ∀ now, rolloutRun now d all new = none := by
  refine ⟨depWith [{ name := "m" }, { name := "gone" }] shownConds,
    [{ set := { name := "b", spec := 0, st := {} }, failed := some [{ name := "m" }] }, failing [{ name := "m" }]],
    some (failing [{ name := "m" }]), { name := "gone" }, by decide, ?_,
    fun now => rest_quiet_no_deadline (depWith_rest _ _ _ rfl rfl rfl rfl rfl (by decide +kernel) (by decide +kernel)) rfl now⟩
  intro m hm
  have hl : ∀ m ∈ summaries [{ set := { name := "b", spec := 0, st := {} }, failed := some [{ name := "m" }] }, failing [{ name := "m" }]],
      m.name ≠ "gone" := by decide +kernel
  exact hl m ((mem_summaries _ m).2 hm)

/-! ### Concrete cases -/

/-- Catching up with a failed machine and later with the deadline takes two writes, the other runs none. -/
example : (runs [failing [{ name := "m" }]] (some (failing [{ name := "m" }])) [1, 2, 3000000000, 3000000001, 4000000000]
    { dep := { replicas := 1, maxSurge := .some (.int 1), maxUnavailable := .some (.int 0) }, generation := 1, deadline := some 1 }).2 = 2 := by
  decide +kernel

/-- The hypotheses of `C98_paused_false` can be met, and the write repeats what is stored. -/
example : (statusRun 5 (depWith [] shownConds |>.after (some (depWith [] shownConds).status)) [{ set := (failing []).set }]
    (some { set := (failing []).set })).map stored = some (depWith [] shownConds |>.after (some (depWith [] shownConds).status)).status := by
  decide +kernel

example : (brief (summaries [failing [{ name := "m" }, { name := "n" }]])).Nodup := by decide

end MCM.DepStatus
