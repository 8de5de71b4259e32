import Verif.Model.Status
import Mathlib.Data.List.Nodup
/-!
# C19 – status counts, C20 – conditions, C50 – progress deadline
-/
namespace MCM.Status
open MCM

/-! ## C20: conditions

Specification: the conditions of one type are `ofType cs t`; a well-formed list has at most one per type. -/

def ofType (cs : List Cond) (t : String) : List Cond := cs.filter fun c => decide (c.type = t)

def OnePerType (cs : List Cond) : Prop := (cs.map (·.type)).Nodup

theorem getCond_eq (cs : List Cond) (t : String) : getCond cs t = (ofType cs t).head? := by
  unfold getCond ofType
  rw [List.head?_filter]
  congr 1

theorem removeCond_ofType (cs : List Cond) (t u : String) : ofType (removeCond cs t) u = if u = t then [] else ofType cs u := by
  unfold ofType removeCond
  rw [List.filter_filter]
  split
  · rename_i h; subst h
    rw [List.filter_eq_nil_iff]
    intro c _
    simp
  · rename_i h
    apply List.filter_congr
    intro c _
    by_cases hc : c.type = u
    · subst hc; simp [h]
    · simp [hc]

theorem ofType_append (a b : List Cond) (t : String) : ofType (a ++ b) t = ofType a t ++ ofType b t := by simp [ofType]

/-- **C20** (set): other types are untouched; if the current condition of the type already has the status and reason the list is
untouched; otherwise exactly one condition of the type is left, with the new status and reason, and the transition time is the
old one if the status did not change and the new one otherwise. -/
theorem C20_set_condition (cs : List Cond) (c : Cond) :
    (∀ t, t ≠ c.type → ofType (setCond cs c) t = ofType cs t) ∧
    (∀ cur, (ofType cs c.type).head? = some cur → cur.status = c.status → cur.reason = c.reason → setCond cs c = cs) ∧
    ((∀ cur, (ofType cs c.type).head? = some cur → ¬ (cur.status = c.status ∧ cur.reason = c.reason)) →
      ∃ c', ofType (setCond cs c) c.type = [c'] ∧ c'.status = c.status ∧ c'.reason = c.reason ∧ c'.updated = c.updated ∧
        (∀ cur, (ofType cs c.type).head? = some cur → cur.status = c.status → c'.transitioned = cur.transitioned) ∧
        ((∀ cur, (ofType cs c.type).head? = some cur → cur.status ≠ c.status) → c'.transitioned = c.transitioned)) := by
  unfold setCond
  rw [getCond_eq]
  cases hh : (ofType cs c.type).head? with
  | none =>
    refine ⟨?_, by simp, ?_⟩
    · intro t ht
      dsimp only
      rw [ofType_append, removeCond_ofType, if_neg ht]
      simp [ofType, Ne.symm ht]
    · intro _
      dsimp only
      refine ⟨c, ?_, rfl, rfl, rfl, by simp, fun _ => rfl⟩
      rw [ofType_append, removeCond_ofType]
      simp [ofType]
  | some cur =>
    dsimp only
    refine ⟨?_, ?_, ?_⟩
    · intro t ht
      split
      · rfl
      · rw [ofType_append, removeCond_ofType, if_neg ht]
        split <;> simp [ofType, Ne.symm ht]
    · intro cur' h1 h2 h3
      cases h1
      rw [if_pos ⟨h2, h3⟩]
    · intro h
      rw [if_neg (h cur rfl)]
      by_cases hs : cur.status = c.status
      · refine ⟨{ c with transitioned := cur.transitioned }, ?_, rfl, rfl, rfl, ?_, ?_⟩
        · rw [ofType_append, removeCond_ofType]
          simp [ofType, hs]
        · intro cur' h1 _; cases h1; rfl
        · intro h'; exact absurd hs (h' cur rfl)
      · refine ⟨c, ?_, rfl, rfl, rfl, ?_, fun _ => rfl⟩
        · rw [ofType_append, removeCond_ofType]
          simp [ofType, hs]
        · intro cur' h1 h2; cases h1; exact absurd h2 hs

/-- **C20** (MachineSet conditions): the same except for the transition time. -/
theorem C20_set_machineSet_condition (cs : List Cond) (c : Cond) :
    (∀ t, t ≠ c.type → ofType (setCondMS cs c) t = ofType cs t) ∧
    (∀ cur, (ofType cs c.type).head? = some cur → cur.status = c.status → cur.reason = c.reason → setCondMS cs c = cs) ∧
    ((∀ cur, (ofType cs c.type).head? = some cur → ¬ (cur.status = c.status ∧ cur.reason = c.reason)) → ofType (setCondMS cs c) c.type = [c]) := by
  unfold setCondMS
  rw [getCond_eq]
  cases hh : (ofType cs c.type).head? with
  | none =>
    refine ⟨?_, by simp, ?_⟩
    · intro t ht
      dsimp only
      rw [ofType_append, removeCond_ofType, if_neg ht]
      simp [ofType, Ne.symm ht]
    · intro _
      dsimp only
      rw [ofType_append, removeCond_ofType]
      simp [ofType]
  | some cur =>
    dsimp only
    refine ⟨?_, ?_, ?_⟩
    · intro t ht
      split
      · rfl
      · rw [ofType_append, removeCond_ofType, if_neg ht]
        simp [ofType, Ne.symm ht]
    · intro cur' h1 h2 h3
      cases h1
      rw [if_pos ⟨h2, h3⟩]
    · intro h
      rw [if_neg (h cur rfl), ofType_append, removeCond_ofType]
      simp [ofType]

/-- **C20** (remove): all of the type go, all others stay. -/
theorem C20_remove_condition (cs : List Cond) (t : String) :
    ofType (removeCond cs t) t = [] ∧ ∀ u, u ≠ t → ofType (removeCond cs t) u = ofType cs u := by
  refine ⟨by rw [removeCond_ofType]; simp, fun u hu => by rw [removeCond_ofType, if_neg hu]⟩

inductive Op
  | set (c : Cond)
  | setMS (c : Cond)
  | remove (t : String)

def Op.run (cs : List Cond) : Op → List Cond
  | .set c => setCond cs c
  | .setMS c => setCondMS cs c
  | .remove t => removeCond cs t

theorem onePerType_remove (cs : List Cond) (t : String) (h : OnePerType cs) : OnePerType (removeCond cs t) :=
  (List.filter_sublist.map _).nodup h

theorem onePerType_add (cs : List Cond) (c : Cond) (h : OnePerType cs) : OnePerType (removeCond cs c.type ++ [c]) := by
  unfold OnePerType
  rw [List.map_append, List.nodup_append]
  refine ⟨onePerType_remove cs c.type h, by simp, ?_⟩
  intro a ha b hb he
  simp at hb
  subst hb
  obtain ⟨x, hx, rfl⟩ := List.mem_map.1 ha
  have := (List.mem_filter.1 hx).2
  simp at this
  exact this he

/-- **C20** over all sequences of operations: there is never more than one condition of a type. -/
theorem C20_one_condition_per_type (ops : List Op) (cs : List Cond) (h : OnePerType cs) : OnePerType (ops.foldl Op.run cs) := by
  induction ops generalizing cs with
  | nil => exact h
  | cons o ops ih =>
    apply ih
    cases o with
    | set c =>
      show OnePerType (setCond cs c)
      unfold setCond
      split
      · exact onePerType_add cs c h
      · dsimp only
        split
        · exact h
        · rename_i cur _ _
          by_cases hs : cur.status = c.status
          · simp only [hs, if_true]
            exact onePerType_add cs { c with transitioned := cur.transitioned } h
          · simp only [hs, if_false]
            exact onePerType_add cs c h
    | setMS c =>
      show OnePerType (setCondMS cs c)
      unfold setCondMS
      split
      · exact onePerType_add cs c h
      · split
        · exact h
        · exact onePerType_add cs c h
    | remove t => exact onePerType_remove cs t h

/-- Setting a MachineSet condition to another reason with the same status moves its transition time (unlike the deployment's). -/
theorem C20_machineSet_transition_time_false : ∃ (cs : List Cond) (c cur : Cond), cur ∈ cs ∧ cur.status = c.status ∧
    ofType (setCondMS cs c) c.type = [c] ∧ c.transitioned ≠ cur.transitioned :=
  ⟨[⟨"ReplicaFailure", "True", "FailedCreate", 0, 0⟩], ⟨"ReplicaFailure", "True", "FailedDelete", 5, 5⟩, ⟨"ReplicaFailure", "True", "FailedCreate", 0, 0⟩,
    by simp, rfl, by decide, by decide⟩

/-! ## C19: counts -/

/-- number of machines in a phase that satisfies `p` -/
def inPhase (ms : List SMachine) (p : Phase → Prop) [DecidablePred p] : Nat := ms.countP fun m => decide (p m.phase)

theorem countP_le_of_imp (ms : List SMachine) (p q : SMachine → Bool) (h : ∀ m, p m = true → q m = true) : ms.countP p ≤ ms.countP q := by
  apply List.countP_mono_left
  intro m _ hm
  exact h m hm

theorem calcSet_ready (now spec : Int) (cur : SetStatus) (ms : List SMachine) (err : Bool) :
    (calcSet now spec cur ms err).ready = inPhase ms (· = .running) := by
  unfold calcSet inPhase
  dsimp only
  rw [← List.countP_eq_length_filter]
  congr 2
  funext m
  unfold isAvailable isReady
  cases m.phase <;> decide

theorem calcSet_available (now spec : Int) (cur : SetStatus) (ms : List SMachine) (err : Bool) :
    (calcSet now spec cur ms err).available = inPhase ms (fun p => p = .available ∨ p = .running) := by
  unfold calcSet inPhase
  dsimp only
  rw [← List.countP_eq_length_filter]
  congr 2
  funext m
  simp only [isAvailable, Bool.decide_or]
  congr 1

/-- **C19** (MachineSet): the counts are those of the machines, and ready ≤ available ≤ replicas, fullyLabeled ≤ replicas. -/
theorem C19_machineSet_counts (now spec : Int) (cur : SetStatus) (ms : List SMachine) (err : Bool) :
    let s := calcSet now spec cur ms err
    s.replicas = ms.length ∧ s.ready = inPhase ms (· = .running) ∧ s.available = inPhase ms (fun p => p = .available ∨ p = .running) ∧
    0 ≤ s.ready ∧ s.ready ≤ s.available ∧ s.available ≤ s.replicas ∧ 0 ≤ s.fullyLabeled ∧ s.fullyLabeled ≤ s.replicas := by
  intro s
  have h1 : s.ready = inPhase ms (· = .running) := calcSet_ready now spec cur ms err
  have h2 : s.available = inPhase ms (fun p => p = .available ∨ p = .running) := calcSet_available now spec cur ms err
  have h3 : s.replicas = ms.length := rfl
  have h4 : s.fullyLabeled = ((ms.filter (·.fullyLabeled)).length : Nat) := rfl
  have h5 : inPhase ms (· = .running) ≤ inPhase ms (fun p => p = .available ∨ p = .running) := by
    apply countP_le_of_imp
    intro m hm
    simp at hm ⊢
    exact Or.inr hm
  have h6 : inPhase ms (fun p => p = .available ∨ p = .running) ≤ ms.length := List.countP_le_length
  have h7 := List.length_filter_le (fun m : SMachine => m.fullyLabeled) ms
  refine ⟨h3, h1, h2, ?_, ?_, ?_, ?_, ?_⟩ <;> omega

/-- A MachineSet reports a replica failure afterwards exactly if replica management failed. -/
theorem C19_replica_failure_reported (now spec : Int) (cur : SetStatus) (ms : List SMachine) (err : Bool) :
    (ofType (calcSet now spec cur ms err).conds "ReplicaFailure" ≠ []) ↔ err = true := by
  have hg : ∀ cs : List Cond, (getCond cs replicaFailure).isNone = true ↔ ofType cs "ReplicaFailure" = [] := by
    intro cs
    rw [getCond_eq, Option.isNone_iff_eq_none, List.head?_eq_none_iff]
    rfl
  unfold calcSet
  dsimp only
  cases err with
  | true =>
    simp only [Bool.true_and, Bool.not_true, Bool.false_and, Bool.false_eq_true, if_false, iff_true]
    split
    · rename_i h
      have key := (C20_set_machineSet_condition cur.conds (newCond now replicaFailure "True"
        (if (ms.length : Int) - spec < 0 then "FailedCreate" else if (ms.length : Int) - spec > 0 then "FailedDelete" else ""))).2.2 ?_
      · intro hcontra
        exact absurd (key.symm.trans hcontra) (by simp)
      · intro c hc
        have h' := (hg cur.conds).1 h
        change (ofType cur.conds "ReplicaFailure").head? = some c at hc
        rw [h'] at hc
        simp at hc
    · rename_i h
      intro hc
      exact h ((hg _).2 hc)
  | false =>
    simp only [Bool.false_and, Bool.false_eq_true, if_false, Bool.not_false, Bool.true_and, iff_false, ne_eq, Decidable.not_not]
    split
    · exact (C20_remove_condition cur.conds "ReplicaFailure").1
    · rename_i h
      apply (hg _).1
      cases hx : getCond cur.conds replicaFailure <;> simp [hx] at h ⊢

/-- If some machine's last operation failed, exactly the failed machines are listed. -/
theorem C19_failed_machines_listed (now spec : Int) (cur : SetStatus) (ms : List SMachine) (err : Bool) (h : ∃ m ∈ ms, m.opFailed = true) :
    ∃ l, (calcSet now spec cur ms err).failed = some l ∧ ∀ n, n ∈ l ↔ ∃ m ∈ ms, m.opFailed = true ∧ m.name = n := by
  obtain ⟨m, hm, hf⟩ := h
  have hl : 0 < ((ms.filter (·.opFailed)).map (·.name)).length := by
    rw [List.length_map]
    exact List.length_pos_of_mem (List.mem_filter.2 ⟨hm, hf⟩)
  refine ⟨(ms.filter (·.opFailed)).map (·.name), ?_, ?_⟩
  · unfold calcSet
    dsimp only
    rw [if_pos hl]
  · intro n
    simp [and_assoc]

/-- A machine set with the machines it owns and the status last stored for it. -/
structure Owned where
  name : String
  spec : Int
  cur : SetStatus
  machines : List SMachine
  err : Bool

/-- the set as the deployment controller sees it after its own controller reported -/
def Owned.reported (now : Int) (o : Owned) : DSet := ⟨o.name, o.spec, calcSet now o.spec o.cur o.machines o.err⟩

theorem sum_counts (l : List Owned) (now : Int) (f : SetStatus → Int) (g : List SMachine → Nat) (hf : ∀ o : Owned, f (o.reported now).st = g o.machines)
    (hg : ∀ a b, g (a ++ b) = g a + g b) (h0 : g [] = 0) :
    ((l.map (Owned.reported now)).map (fun s => f s.st)).sum = g (l.flatMap (·.machines)) := by
  induction l with
  | nil => simp [h0]
  | cons o l ih =>
    simp only [List.map_cons, List.sum_cons, List.flatMap_cons, hg]
    rw [ih, hf o]
    omega

/-- **C19** (MachineDeployment): once the machine sets have reported, the deployment's counts are the numbers of machines of all its sets in
the respective phases, updated counts the machines of the current set, unavailable is what is missing to the total desired, and
ready ≤ available ≤ replicas, updated ≤ replicas. -/
theorem C19_deployment_counts (now : Int) (d : DDep) (old : List Owned) (new : Option Owned) :
    let all := old ++ new.toList
    let s := calcDep now d (all.map (Owned.reported now)) (new.map (Owned.reported now))
    let ms := all.flatMap (·.machines)
    s.replicas = ms.length ∧ s.ready = inPhase ms (· = .running) ∧ s.available = inPhase ms (fun p => p = .available ∨ p = .running) ∧
    s.updated = (new.toList.flatMap (·.machines)).length ∧
    s.unavailable = max 0 ((all.map (·.spec)).sum - s.available) ∧
    s.ready ≤ s.available ∧ s.available ≤ s.replicas ∧ 0 ≤ s.updated ∧ s.updated ≤ s.replicas ∧ s.observed = d.generation := by
  intro all s ms
  have h1 : s.replicas = ms.length := by
    refine sum_counts all now (·.replicas) List.length ?_ ?_ ?_
    · intro o; rfl
    · intro a b; simp
    · rfl
  have h2 : s.ready = inPhase ms (· = .running) := by
    refine sum_counts all now (·.ready) (fun l => inPhase l (· = .running)) ?_ ?_ ?_
    · intro o; exact calcSet_ready _ _ _ _ _
    · intro a b; simp [inPhase]
    · rfl
  have h3 : s.available = inPhase ms (fun p => p = .available ∨ p = .running) := by
    refine sum_counts all now (·.available) (fun l => inPhase l (fun p => p = .available ∨ p = .running)) ?_ ?_ ?_
    · intro o; exact calcSet_available _ _ _ _ _
    · intro a b; simp [inPhase]
    · rfl
  have h4 : s.updated = (new.toList.flatMap (·.machines)).length := by
    have : s.updated = ((new.toList.map (Owned.reported now)).map (fun s => s.st.replicas)).sum := by
      show ((new.map (Owned.reported now)).toList.map (·.st.replicas)).sum = _
      cases new <;> rfl
    rw [this]
    refine sum_counts new.toList now (·.replicas) List.length ?_ ?_ ?_
    · intro o; rfl
    · intro a b; simp
    · rfl
  have h5 : s.unavailable = max 0 ((all.map (·.spec)).sum - s.available) := by
    show (if (((all.map (Owned.reported now)).map (·.spec)).sum - s.available) < 0 then 0 else ((all.map (Owned.reported now)).map (·.spec)).sum - s.available) = _
    have : (all.map (Owned.reported now)).map (·.spec) = all.map (·.spec) := by
      rw [List.map_map]; rfl
    rw [this]
    split <;> omega
  have h6 : inPhase ms (· = .running) ≤ inPhase ms (fun p => p = .available ∨ p = .running) := by
    apply countP_le_of_imp
    intro m hm
    simp at hm ⊢
    exact Or.inr hm
  have h7 : inPhase ms (fun p => p = .available ∨ p = .running) ≤ ms.length := List.countP_le_length
  have h8 : (new.toList.flatMap (·.machines)).length ≤ ms.length := by
    show _ ≤ (List.flatMap (·.machines) (old ++ new.toList)).length
    rw [List.flatMap_append, List.length_append]
    omega
  refine ⟨h1, h2, h3, h4, h5, ?_, ?_, ?_, ?_, rfl⟩ <;> omega

/-- The Available condition is True exactly if at least (desired - max unavailable) machines are available. -/
theorem C19_available_condition (now : Int) (d : DDep) (all : List DSet) (new : Option DSet) (h : OnePerType d.status.conds) :
    ∃ c, ofType (calcDep now d all new).conds "Available" = [c] ∧
      c.status = if (all.map (·.st.available)).sum ≥ d.dep.replicas - Rolling.maxUnavailable d.dep then "True" else "False" := by
  have key : ∀ (cs : List Cond) (c : Cond), OnePerType cs → ∃ c', ofType (setCond cs c) c.type = [c'] ∧ c'.status = c.status := by
    intro cs c hcs
    have hc := C20_set_condition cs c
    by_cases hx : ∃ cur, (ofType cs c.type).head? = some cur ∧ cur.status = c.status ∧ cur.reason = c.reason
    · obtain ⟨cur, h1, h2, h3⟩ := hx
      rw [hc.2.1 cur h1 h2 h3]
      refine ⟨cur, ?_, h2⟩
      cases hl : ofType cs c.type with
      | nil => rw [hl] at h1; simp at h1
      | cons a l =>
        rw [hl] at h1
        simp at h1
        subst h1
        cases l with
        | nil => rfl
        | cons b l =>
          exfalso
          have hsub : ((ofType cs c.type).map (·.type)).Nodup := (List.filter_sublist.map _).nodup hcs
          have ht : ∀ x ∈ ofType cs c.type, x.type = c.type := by
            intro x hx
            simpa using (List.mem_filter.1 hx).2
          rw [hl] at hsub ht
          simp only [List.map_cons, List.nodup_cons, List.mem_cons] at hsub
          exact hsub.1 (Or.inl ((ht a (by simp)).trans (ht b (by simp)).symm))
    · obtain ⟨c', h1, h2, _⟩ := hc.2.2 (fun cur h1 h2 => hx ⟨cur, h1, h2⟩)
      exact ⟨c', h1, h2⟩
  unfold calcDep
  dsimp only
  split
  · exact key _ (newCond now "Available" "True" _) h
  · exact key _ (newCond now "Available" "False" _) h

/-! ## C50: progress deadline -/

/-- rollout finished: exactly the desired number of machines, all of the current template and available -/
def Finished (d : DDep) (n : DStatus) : Prop :=
  n.replicas = d.dep.replicas ∧ n.updated = d.dep.replicas ∧ n.available = d.dep.replicas ∧ d.generation ≤ n.observed

/-- progress since the stored status: more updated, ready or available machines or fewer old ones -/
def Progress (old n : DStatus) : Prop :=
  old.updated < n.updated ∨ n.replicas - n.updated < old.replicas - old.updated ∨ old.ready < n.ready ∨ old.available < n.available

instance (d : DDep) (n : DStatus) : Decidable (Finished d n) := by unfold Finished; infer_instance
instance (old n : DStatus) : Decidable (Progress old n) := by unfold Progress; infer_instance

theorem complete_iff (d : DDep) (n : DStatus) : complete d n = true ↔ Finished d n := by
  unfold complete Finished
  simp only [Bool.and_eq_true, decide_eq_true_eq]
  omega

theorem isProgressing_iff (old n : DStatus) : isProgressing old n = true ↔ Progress old n := by
  unfold isProgressing Progress
  simp only [Bool.or_eq_true, decide_eq_true_eq]
  omega

theorem getCond_set_self (cs : List Cond) (c : Cond) :
    (getCond (setCond cs c) c.type = getCond cs c.type ∧ ∃ cur, getCond cs c.type = some cur ∧ cur.status = c.status ∧ cur.reason = c.reason) ∨
    (∃ tr, getCond (setCond cs c) c.type = some { c with transitioned := tr }) := by
  have hg : getCond (removeCond cs c.type) c.type = none := by
    rw [getCond_eq, removeCond_ofType]; simp
  have ha : ∀ c2 : Cond, c2.type = c.type → getCond (removeCond cs c.type ++ [c2]) c.type = some c2 := by
    intro c2 h2
    rw [getCond_eq, ofType_append, removeCond_ofType]
    simp [ofType, h2]
  unfold setCond
  cases h : getCond cs c.type with
  | none => exact Or.inr ⟨c.transitioned, ha c rfl⟩
  | some cur =>
    dsimp only
    by_cases h2 : cur.status = c.status ∧ cur.reason = c.reason
    · rw [if_pos h2]; exact Or.inl ⟨h, cur, rfl, h2⟩
    · rw [if_neg h2]
      by_cases h3 : cur.status = c.status
      · rw [if_pos h3]; exact Or.inr ⟨cur.transitioned, ha { c with transitioned := cur.transitioned } rfl⟩
      · rw [if_neg h3]; exact Or.inr ⟨c.transitioned, ha c rfl⟩

theorem getCond_set_other (cs : List Cond) (c : Cond) (t : String) (h : t ≠ c.type) : getCond (setCond cs c) t = getCond cs t := by
  rw [getCond_eq, getCond_eq, (C20_set_condition cs c).1 t h]

theorem getCond_remove_other (cs : List Cond) (t u : String) (h : u ≠ t) : getCond (removeCond cs t) u = getCond cs u := by
  rw [getCond_eq, getCond_eq, (C20_remove_condition cs t).2 u h]

theorem calcDep_progressing (now : Int) (d : DDep) (all : List DSet) (new : Option DSet) :
    getCond (calcDep now d all new).conds progressing = getCond d.status.conds progressing := by
  unfold calcDep
  dsimp only
  split <;> exact getCond_set_other _ _ _ (show progressing ≠ "Available" by decide +kernel)

theorem rollout_progressing (now : Int) (d : DDep) (all : List DSet) (new : Option DSet) :
    getCond (rolloutStatus now d all new).conds progressing = getCond (progressConds now d (calcDep now d all new)) progressing := by
  unfold rolloutStatus
  dsimp only
  cases hf : replicaFailures all new with
  | nil => exact getCond_remove_other _ _ _ (by decide +kernel)
  | cons c l =>
    dsimp only
    apply getCond_set_other
    have hc : c ∈ replicaFailures all new := by rw [hf]; simp
    have ht : c.type = replicaFailure := by
      unfold replicaFailures at hc
      dsimp only at hc
      split at hc <;>
      · obtain ⟨s, _, hs⟩ := List.mem_flatMap.1 hc
        obtain ⟨x, hx, rfl⟩ := List.mem_map.1 hs
        simpa using (List.mem_filter.1 hx).2
    rw [ht]
    decide +kernel

/-- What one run of the rollout status does to the Progressing condition, by cases. -/
inductive Outcome (now : Int) (d : DDep) (n : DStatus) (c c' : Option Cond) : Prop
  /-- an already completed rollout is left alone -/
  | done (h : c' = c) (hr : ∃ k, c = some k ∧ k.reason = "NewMachineSetAvailable") (he : n.replicas = n.updated)
  /-- finished: reported as such -/
  | finished (hf : Finished d n) (h : ∃ k, c' = some k ∧ k.status = "True" ∧ k.reason = "NewMachineSetAvailable")
  /-- progress: recorded with the current time -/
  | progress (hp : Progress d.status n) (h : ∃ k, c' = some k ∧ k.status = "True" ∧ k.reason = "MachineSetUpdated" ∧ k.updated = now)
  /-- no progress for longer than the deadline -/
  | timedOut (hf : ¬ Finished d n) (hp : ¬ Progress d.status n)
      (hd : ∃ dl k, d.deadline = some dl ∧ c = some k ∧ k.reason ≠ "NewMachineSetAvailable" ∧
        (k.reason = "ProgressDeadlineExceeded" ∨ k.updated + dl * 1000000000 < now))
      (h : ∃ k, c' = some k ∧ k.status = "False" ∧ k.reason = "ProgressDeadlineExceeded")
  /-- still waiting -/
  | waiting (hf : ¬ Finished d n) (hp : ¬ Progress d.status n)
      (hd : ∀ dl k, d.deadline = some dl → c = some k → k.reason = "NewMachineSetAvailable" ∨
        (k.reason ≠ "ProgressDeadlineExceeded" ∧ now ≤ k.updated + dl * 1000000000))
      (h : c' = c)

/-- **C50**, one run: the Progressing condition after a status sync of a rollout is the one demanded by the case the
deployment is in. -/
theorem C50_progress_condition (now : Int) (d : DDep) (all : List DSet) (new : Option DSet) :
    Outcome now d (calcDep now d all new) (getCond d.status.conds "Progressing") (getCond (rolloutStatus now d all new).conds "Progressing") := by
  have e1 := rollout_progressing now d all new
  have e2 := calcDep_progressing now d all new
  generalize calcDep now d all new = n at *
  change Outcome now d n (getCond d.status.conds progressing) (getCond (rolloutStatus now d all new).conds progressing)
  rw [e1]
  clear e1
  unfold progressConds
  dsimp only
  split
  · rename_i h
    rw [Bool.and_eq_true, decide_eq_true_eq] at h
    rw [e2]
    refine .done rfl ?_ h.1
    cases hc : getCond d.status.conds progressing with
    | none => rw [hc] at h; simp [reportedDone] at h
    | some k => rw [hc] at h; unfold reportedDone at h; exact ⟨k, rfl, eq_of_beq h.2⟩
  · split
    · rename_i h
      refine .finished ((complete_iff d n).1 h) ?_
      rcases getCond_set_self n.conds (newCond now progressing "True" newISAvailable) with ⟨h1, cur, h2, h3, h4⟩ | ⟨tr, h1⟩
      · exact ⟨cur, h1.trans h2, h3, h4⟩
      · exact ⟨_, h1, rfl, rfl⟩
    · rename_i hf
      have hf' : ¬ Finished d n := fun h => hf ((complete_iff d n).2 h)
      split
      · rename_i h
        refine .progress ((isProgressing_iff _ _).1 h) ?_
        cases hc : getCond d.status.conds progressing with
        | none =>
          dsimp only
          rcases getCond_set_self n.conds (newCond now progressing "True" updatedReason) with ⟨h1, cur, h2, h3, h4⟩ | ⟨tr, h1⟩
          · change getCond n.conds progressing = some cur at h2
            rw [e2, hc] at h2
            simp at h2
          · exact ⟨_, h1, rfl, rfl, rfl⟩
        | some k =>
          dsimp only
          have hr : getCond (removeCond n.conds progressing) progressing = none := by
            rw [getCond_eq, removeCond_ofType]; simp
          have : ∀ c : Cond, c.type = progressing → c.status = "True" → c.reason = updatedReason → c.updated = now →
              ∃ k, getCond (setCond (removeCond n.conds progressing) c) progressing = some k ∧ k.status = "True" ∧ k.reason = "MachineSetUpdated" ∧ k.updated = now := by
            intro c ht hs hre hu
            rcases getCond_set_self (removeCond n.conds progressing) c with ⟨h1, cur, h2, h3, h4⟩ | ⟨tr, h1⟩
            · rw [ht, hr] at h2; simp at h2
            · rw [ht] at h1; exact ⟨_, h1, hs, hre, hu⟩
          split
          · exact this _ rfl rfl rfl rfl
          · exact this _ rfl rfl rfl rfl
      · rename_i hp
        have hp' : ¬ Progress d.status n := fun h => hp ((isProgressing_iff _ _).2 h)
        split
        · rename_i h
          refine .timedOut hf' hp' ?_ ?_
          · unfold timedOut at h
            rw [e2] at h
            cases hd : d.deadline with
            | none => rw [hd] at h; simp at h
            | some dl =>
              cases hc : getCond d.status.conds progressing with
              | none => rw [hd, hc] at h; simp at h
              | some k =>
                rw [hd, hc] at h
                dsimp only at h
                refine ⟨dl, k, rfl, rfl, ?_⟩
                split at h
                · simp at h
                · rename_i hk
                  refine ⟨hk, ?_⟩
                  split at h
                  · exact Or.inl ‹_›
                  · exact Or.inr (by simpa using h)
          · rcases getCond_set_self n.conds (newCond now progressing "False" timedOutReason) with ⟨h1, cur, h2, h3, h4⟩ | ⟨tr, h1⟩
            · exact ⟨cur, h1.trans h2, h3, h4⟩
            · exact ⟨_, h1, rfl, rfl⟩
        · rename_i h
          refine .waiting hf' hp' ?_ e2
          intro dl k hd hc
          unfold timedOut at h
          rw [e2, hd, hc] at h
          dsimp only at h
          split at h
          · exact Or.inl ‹_›
          · split at h
            · simp at h
            · rename_i h2
              refine Or.inr ⟨h2, ?_⟩
              simp at h
              exact h

/-! ### All histories -/

/-- A moment in the life of a deployment: its Progressing condition, the time, and (ghost) the last time at which the controller saw
progress or completion, and the deadline and the time of every sync since then at which a deadline was set. -/
structure Moment where
  cond : Option Cond
  now : Int
  last : Int
  seen : List (Int × Int)

inductive Step : Moment → Moment → Prop
  /-- a status sync of a rollout, at any later time, with any machine sets and any deadline -/
  | sync (m : Moment) (now : Int) (d : DDep) (all : List DSet) (new : Option DSet) (last : Int) (seen : List (Int × Int)) (ht : m.now ≤ now)
      (hc : getCond d.status.conds "Progressing" = m.cond)
      (hl : last = if Finished d (calcDep now d all new) ∨ Progress d.status (calcDep now d all new) then now else m.last)
      (hs : seen = if Finished d (calcDep now d all new) ∨ Progress d.status (calcDep now d all new) then [] else (d.deadline.map fun dl => (dl, now)).toList ++ m.seen) :
      Step m ⟨getCond (rolloutStatus now d all new).conds "Progressing", now, last, seen⟩
  /-- the status write fails: the stored condition stays -/
  | lost (m : Moment) (now : Int) (ht : m.now ≤ now) : Step m { m with now := now }
  /-- the deployment is paused or resumed -/
  | paused (m : Moment) (now : Int) (p : Bool) (cs : List Cond) (ht : m.now ≤ now) (hc : getCond cs "Progressing" = m.cond) :
      Step m ⟨getCond (checkPaused now p cs) "Progressing", now, m.last, m.seen⟩
  /-- a machine set for a new template is created (or that fails, or an existing set is found without any condition yet),
  deployment_sync.go:267-273, 371-374, 387-391 -/
  | newSet (m : Moment) (now : Int) (cs : List Cond) (status reason : String) (ht : m.now ≤ now) (hc : getCond cs "Progressing" = m.cond)
      (hr : reason = "NewMachineSetCreated" ∨ reason = "MachineSetCreateError" ∨ reason = "FoundNewMachineSet") :
      Step m ⟨getCond (setCond cs (newCond now "Progressing" status reason)) "Progressing", now, m.last, m.seen⟩

inductive Steps : Moment → Moment → Prop
  | refl (a) : Steps a a
  | tail {a b c} : Steps a b → Step b c → Steps a c

/-- invariant: `last` is in the past, an ordinary condition is not older than it, and a reported time-out is justified by it -/
def Inv (m : Moment) : Prop :=
  m.last ≤ m.now ∧ ∀ k, m.cond = some k →
    (k.reason ≠ "NewMachineSetAvailable" → k.reason ≠ "ProgressDeadlineExceeded" → m.last ≤ k.updated) ∧
    (k.reason = "ProgressDeadlineExceeded" → ∃ dl t, (dl, t) ∈ m.seen ∧ m.last + dl * 1000000000 < t ∧ t ≤ m.now)

theorem inv_set (m : Moment) (now : Int) (cs : List Cond) (status reason : String) (ht : m.now ≤ now) (hc : getCond cs "Progressing" = m.cond)
    (h2 : reason ≠ "ProgressDeadlineExceeded") (h : Inv m) :
    Inv ⟨getCond (setCond cs (newCond now "Progressing" status reason)) "Progressing", now, m.last, m.seen⟩ := by
  obtain ⟨i1, i2⟩ := h
  refine ⟨by dsimp only; omega, ?_⟩
  intro k hk
  dsimp only at hk ⊢
  rcases getCond_set_self cs (newCond now "Progressing" status reason) with ⟨e1, cur, e2, _, e4⟩ | ⟨tr, e1⟩
  · change getCond (setCond cs (newCond now "Progressing" status reason)) "Progressing" = getCond cs "Progressing" at e1
    rw [e1, hc] at hk
    obtain ⟨a, b⟩ := i2 k hk
    refine ⟨a, fun hr => ?_⟩
    obtain ⟨dl, t, hm, p, q⟩ := b hr
    exact ⟨dl, t, hm, p, by omega⟩
  · change getCond (setCond cs (newCond now "Progressing" status reason)) "Progressing" = _ at e1
    rw [e1] at hk
    cases hk
    refine ⟨fun _ _ => ?_, fun hr => absurd hr h2⟩
    show m.last ≤ now
    omega

theorem inv_step {a b : Moment} (h : Inv a) (hs : Step a b) : Inv b := by
  cases hs with
  | lost now ht =>
    obtain ⟨i1, i2⟩ := h
    refine ⟨by dsimp only; omega, fun k hk => ?_⟩
    obtain ⟨p, q⟩ := i2 k hk
    refine ⟨p, fun hr => ?_⟩
    obtain ⟨dl, t, hm, x, y⟩ := q hr
    exact ⟨dl, t, hm, x, by dsimp only; omega⟩
  | newSet now cs status reason ht hc hr =>
    apply inv_set a now cs status reason ht hc _ h
    · rcases hr with rfl | rfl | rfl <;> decide
  | paused now p cs ht hc =>
    have keep : Inv ⟨getCond cs "Progressing", now, a.last, a.seen⟩ := by
      obtain ⟨i1, i2⟩ := h
      refine ⟨by dsimp only; omega, fun k hk => ?_⟩
      dsimp only at hk
      rw [hc] at hk
      obtain ⟨x, y⟩ := i2 k hk
      refine ⟨x, fun hr => ?_⟩
      obtain ⟨dl, t, hm, u, v⟩ := y hr
      exact ⟨dl, t, hm, u, by dsimp only; omega⟩
    unfold checkPaused
    split
    · split
      · exact keep
      · split
        · exact inv_set a now cs _ _ ht hc (by decide) h
        · split
          · exact inv_set a now cs _ _ ht hc (by decide) h
          · exact keep
    · split
      · exact inv_set a now cs _ _ ht hc (by decide) h
      · exact keep
  | sync now d all new last seen ht hc hl hse =>
    obtain ⟨i1, i2⟩ := h
    have ho := C50_progress_condition now d all new
    rw [hc] at ho
    generalize hc' : getCond (rolloutStatus now d all new).conds "Progressing" = c' at ho
    generalize calcDep now d all new = n at *
    have hlast : last = a.last ∨ last = now := by rw [hl]; split <;> simp
    refine ⟨by dsimp only; omega, fun k hk => ?_⟩
    dsimp only at hk ⊢
    cases ho with
    | done h hr he =>
      obtain ⟨k', e1, e2⟩ := hr
      rw [h, e1] at hk
      cases hk
      refine ⟨fun h' => absurd e2 h', fun h' => ?_⟩
      rw [e2] at h'
      exact absurd h' (by decide)
    | finished hf h =>
      obtain ⟨k', e1, _, e2⟩ := h
      rw [e1] at hk
      cases hk
      refine ⟨fun h' => absurd e2 h', fun h' => ?_⟩
      rw [e2] at h'
      exact absurd h' (by decide)
    | progress hp h =>
      obtain ⟨k', e1, _, e2, e3⟩ := h
      rw [e1] at hk
      cases hk
      refine ⟨fun _ _ => by omega, fun h' => ?_⟩
      rw [e2] at h'
      exact absurd h' (by decide)
    | timedOut hf hp hd h =>
      have hl' : last = a.last := by rw [hl, if_neg]; rintro (h | h); exact hf h; exact hp h
      obtain ⟨k', e1, _, e2⟩ := h
      rw [e1] at hk
      cases hk
      refine ⟨fun _ h' => absurd e2 h', fun _ => ?_⟩
      have hse' : seen = (d.deadline.map fun dl => (dl, now)).toList ++ a.seen := by rw [hse, if_neg]; rintro (h | h); exact hf h; exact hp h
      obtain ⟨dl, k0, hdl, c0, r0, hor⟩ := hd
      obtain ⟨x, y⟩ := i2 k0 c0
      rcases hor with hor | hor
      · obtain ⟨dl', t, hm, u, v⟩ := y hor
        exact ⟨dl', t, by rw [hse']; exact List.mem_append_right _ hm, by omega, by omega⟩
      · by_cases hto : k0.reason = "ProgressDeadlineExceeded"
        · obtain ⟨dl', t, hm, u, v⟩ := y hto
          exact ⟨dl', t, by rw [hse']; exact List.mem_append_right _ hm, by omega, by omega⟩
        · have := x r0 hto
          exact ⟨dl, now, by rw [hse', hdl]; exact List.mem_cons_self, by omega, Int.le_refl _⟩
    | waiting hf hp hd h =>
      have hl' : last = a.last := by rw [hl, if_neg]; rintro (h | h); exact hf h; exact hp h
      have hse' : seen = (d.deadline.map fun dl => (dl, now)).toList ++ a.seen := by rw [hse, if_neg]; rintro (h | h); exact hf h; exact hp h
      rw [h] at hk
      obtain ⟨x, y⟩ := i2 k hk
      refine ⟨fun p q => by have := x p q; omega, fun hr => ?_⟩
      obtain ⟨dl', t, hm, u, v⟩ := y hr
      exact ⟨dl', t, by rw [hse']; exact List.mem_append_right _ hm, by omega, by omega⟩

/-- **C50** over all histories of syncs, lost writes, pauses and new templates: for a deployment that is reported as timed out there was a sync, at a time `t` after the last
progress or completion, at which a deadline `dl` was set and had passed since; and it has not shown any progress from then until now. -/
theorem C50_timeout_justified (a b : Moment) (h : Inv a) (hs : Steps a b) (k : Cond) (hk : b.cond = some k) (hr : k.reason = "ProgressDeadlineExceeded") :
    ∃ dl t, (dl, t) ∈ b.seen ∧ b.last + dl * 1000000000 < t ∧ t ≤ b.now := by
  have : Inv b := by
    clear hk hr
    induction hs with
    | refl => exact h
    | tail _ hs ih => exact inv_step ih hs
  exact (this.2 k hk).2 hr

/-- An unfinished rollout that is not reported as timed out and whose status did not change is looked at again, and if nothing has changed
by then, at that moment it counts as timed out (an immediate requeue is repeated until then). -/
theorem C50_deadline_is_checked (now : Int) (d : DDep) (n : DStatus) (dl : Int) (c : Cond) (hd : d.deadline = some dl)
    (hc : getCond d.status.conds "Progressing" = some c) (hf : ¬ Finished d n) (hr : c.reason ≠ "ProgressDeadlineExceeded") :
    ∃ delay, requeueStuck now d n = some delay ∧
      (delay = 0 ∨ (c.reason ≠ "NewMachineSetAvailable" → getCond n.conds "Progressing" = some c → timedOut (now + delay) d n = true)) := by
  have hf' : complete d n = false := by
    cases h : complete d n
    · rfl
    · exact absurd ((complete_iff d n).1 h) hf
  have hr' : (c.reason == timedOutReason) = false := by
    simpa [timedOutReason] using hr
  unfold requeueStuck
  change getCond d.status.conds progressing = some c at hc
  rw [hd, hc]
  dsimp only
  simp only [hf', hr', Bool.or_self, Bool.false_eq_true, if_false]
  split
  · exact ⟨0, rfl, Or.inl rfl⟩
  · refine ⟨_, rfl, Or.inr ?_⟩
    intro h1 h2
    unfold timedOut
    change getCond n.conds progressing = some c at h2
    rw [hd, h2]
    dsimp only
    rw [if_neg (show ¬ c.reason = newISAvailable from h1)]
    split
    · rfl
    · simp only [decide_eq_true_eq]
      omega

/-- The other direction of C50 fails: when the template is changed back to one that still has a machine set, no new condition is
written, the condition still says the last rollout succeeded, and a rollout that never makes progress is never reported
as timed out, however late it is. -/
theorem C50_return_to_old_template_never_times_out_false :
    ∃ (d : DDep) (all : List DSet) (new : Option DSet), d.deadline = some 600 ∧ (∀ now, ¬ Finished d (calcDep now d all new)) ∧
      ∀ now, ¬ Progress d.status (calcDep now d all new) ∧
        ∃ k, getCond (rolloutStatus now d all new).conds "Progressing" = some k ∧ k.reason = "NewMachineSetAvailable" := by
  let d : DDep := {
    dep := ⟨1, .rolling, some (.int 1), some (.int 0)⟩, generation := 2, deadline := some 600,
    status := { observed := 2, replicas := 1, updated := 0, ready := 1, available := 1, conds := [⟨"Progressing", "True", "NewMachineSetAvailable", 0, 0⟩] } }
  let old : DSet := ⟨"old", 1, { replicas := 1, ready := 1, available := 1 }⟩
  let new : DSet := ⟨"new", 1, {}⟩
  have hfin : ∀ now, ¬ Finished d (calcDep now d [old, new] (some new)) := by
    intro now h
    have : (0 : Int) = 1 := h.2.1
    omega
  have hprog : ∀ now, ¬ Progress d.status (calcDep now d [old, new] (some new)) := by
    intro now h
    have : ¬ (d.status.updated < (0 : Int) ∨ (1 : Int) - 0 < d.status.replicas - d.status.updated ∨ d.status.ready < 1 ∨ d.status.available < 1) := by decide
    exact this h
  refine ⟨d, [old, new], some new, rfl, hfin, ?_⟩
  intro now
  refine ⟨hprog now, ⟨"Progressing", "True", "NewMachineSetAvailable", 0, 0⟩, ?_, rfl⟩
  have ho := C50_progress_condition now d [old, new] (some new)
  have hc0 : getCond d.status.conds "Progressing" = some ⟨"Progressing", "True", "NewMachineSetAvailable", 0, 0⟩ := by decide
  rw [hc0] at ho
  cases ho with
  | done h _ _ => exact h
  | finished hf _ => exact absurd hf (hfin now)
  | progress hp _ => exact absurd hp (hprog now)
  | timedOut _ _ hd _ =>
    obtain ⟨_, k, _, h1, h2, _⟩ := hd
    cases h1
    exact absurd rfl h2
  | waiting _ _ _ h => exact h

/-- A deployment whose last rollout succeeded longer ago than the deadline and that is no longer complete (say, because a machine
broke) is requeued at once after every look that finds nothing new: the controller is busy until the machine is replaced. -/
theorem C50_busy_requeue_false : ∃ (d : DDep) (n : DStatus), ¬ Finished d n ∧ ¬ Progress d.status n ∧
    ∀ now, 600000000000 ≤ now → requeueStuck now d n = some 0 := by
  let d : DDep := {
    dep := ⟨1, .rolling, some (.int 1), some (.int 0)⟩, generation := 2, deadline := some 600,
    status := { observed := 2, replicas := 1, updated := 1, ready := 0, available := 0, conds := [⟨"Progressing", "True", "NewMachineSetAvailable", 0, 0⟩] } }
  refine ⟨d, d.status, by decide, by decide, ?_⟩
  intro now h
  have hc0 : getCond d.status.conds progressing = some ⟨"Progressing", "True", "NewMachineSetAvailable", 0, 0⟩ := by decide +kernel
  unfold requeueStuck
  rw [hc0]
  have h1 : (complete d d.status || ("NewMachineSetAvailable" : String) == timedOutReason) = false := by decide +kernel
  show (if (complete d d.status || ("NewMachineSetAvailable" : String) == timedOutReason) = true then none
    else if (0 : Int) + 600 * 1000000000 - now < 1000000000 then some 0 else some ((0 : Int) + 600 * 1000000000 - now + 1000000000)) = some 0
  rw [h1]
  simp only [Bool.false_eq_true, if_false]
  rw [if_pos (by omega)]

/-! ## Concrete cases -/

example : (calcSet 0 3 {} [⟨"a", .running, true, false⟩, ⟨"b", .available, true, false⟩, ⟨"c", .failed, false, true⟩] true)
    = ⟨3, 2, 1, 2, some ["c"], [⟨"ReplicaFailure", "True", "", 0, 0⟩]⟩ := by decide

example : setCond [⟨"A", "True", "x", 1, 1⟩, ⟨"B", "True", "y", 2, 2⟩] ⟨"A", "True", "z", 9, 9⟩ = [⟨"B", "True", "y", 2, 2⟩, ⟨"A", "True", "z", 9, 1⟩] := by decide

/-- a rollout that timed out -/
example : Inv ⟨some ⟨"Progressing", "True", "MachineSetUpdated", 5, 5⟩, 5, 5, []⟩ := ⟨by decide, fun k hk => by
  cases hk; exact ⟨fun _ _ => Int.le_refl _, fun h => absurd h (by decide)⟩⟩

/-! ## Writing, failures and pausing -/

/-- **C19** (write): the status of a machine set is not written only if the stored one says exactly what was calculated, and of the generation that was acted on. -/
theorem C19_written (cur new : SetStatus) (gen obs : Int) : setWriteNeeded cur new gen obs = false ↔ cur = new ∧ gen = obs := by
  unfold setWriteNeeded
  cases cur; cases new
  simp
  constructor <;> (intro h; simp_all)

/-- the failures reported by a set -/
def reports (s : DSet) : List Cond := ofType s.st.conds "ReplicaFailure"

/-- **C19** (failures of a deployment): the deployment has a condition on failures exactly if one of its sets has; it has the status and the reason of the newest set's, if that one has
any, else of the first set that has any. -/
theorem C19_deployment_failure (now : Int) (d : DDep) (all : List DSet) (new : Option DSet) :
    (new.toList.flatMap reports = [] → all.flatMap reports = [] → ofType (rolloutStatus now d all new).conds "ReplicaFailure" = []) ∧
    (∀ f, (new.toList.flatMap reports).head? = some f ∨ (new.toList.flatMap reports = [] ∧ (all.flatMap reports).head? = some f) →
      ∃ c, getCond (rolloutStatus now d all new).conds "ReplicaFailure" = some c ∧ c.status = f.status ∧ c.reason = f.reason) := by
  have hf : ∀ s : DSet, ((s.st.conds.filter fun c => c.type == replicaFailure).map fun c : Cond => { c with updated := c.transitioned }) =
      (reports s).map fun c : Cond => { c with updated := c.transitioned } := by
    intro s
    unfold reports ofType
    congr 1
  have hm : ∀ l : List DSet, l.flatMap (fun s => (s.st.conds.filter fun c => c.type == replicaFailure).map fun c : Cond => { c with updated := c.transitioned }) =
      (l.flatMap reports).map fun c : Cond => { c with updated := c.transitioned } := by
    intro l
    induction l with
    | nil => rfl
    | cons a l ih => rw [List.flatMap_cons, List.flatMap_cons, List.map_append, ih, hf]
  have hr : replicaFailures all new = if (new.toList.flatMap reports) = [] then (all.flatMap reports).map (fun c : Cond => { c with updated := c.transitioned })
      else (new.toList.flatMap reports).map (fun c : Cond => { c with updated := c.transitioned }) := by
    unfold replicaFailures
    dsimp only
    rw [hm, hm]
    cases h : new.toList.flatMap reports <;> simp
  have hty : ∀ l : List DSet, ∀ c ∈ l.flatMap reports, c.type = "ReplicaFailure" := by
    intro l c hc
    obtain ⟨s, _, hs⟩ := List.mem_flatMap.1 hc
    unfold reports ofType at hs
    simpa using (List.mem_filter.1 hs).2
  constructor
  · intro h1 h2
    unfold rolloutStatus
    dsimp only
    rw [hr, if_pos h1, h2]
    exact (C20_remove_condition _ _).1
  · intro f h
    have key : ∃ rest, replicaFailures all new = { f with updated := f.transitioned } :: rest := by
      rw [hr]
      rcases h with h | ⟨h1, h⟩
      · cases hl : new.toList.flatMap reports with
        | nil => rw [hl] at h; cases h
        | cons a l => rw [hl] at h; cases h; rw [if_neg (by simp)]; exact ⟨_, rfl⟩
      · rw [if_pos h1]
        cases hl : all.flatMap reports with
        | nil => rw [hl] at h; cases h
        | cons a l => rw [hl] at h; cases h; exact ⟨_, rfl⟩
    have hft : f.type = "ReplicaFailure" := by
      rcases h with h | ⟨_, h⟩
      · exact hty _ f (List.mem_of_head? h)
      · exact hty _ f (List.mem_of_head? h)
    obtain ⟨rest, he⟩ := key
    unfold rolloutStatus
    dsimp only
    rw [he]
    dsimp only
    obtain ⟨_, k1, k2⟩ := C20_set_condition (progressConds now d (calcDep now d all new)) { f with updated := f.transitioned }
    dsimp only at k1 k2
    rw [hft] at k1 k2
    rw [getCond_eq, hft]
    by_cases hx : ∃ cur, (ofType (progressConds now d (calcDep now d all new)) "ReplicaFailure").head? = some cur ∧ cur.status = f.status ∧ cur.reason = f.reason
    · obtain ⟨cur, h1, h2, h3⟩ := hx
      rw [k1 cur h1 h2 h3]
      exact ⟨cur, h1, h2, h3⟩
    · obtain ⟨c, h1, h2, h3, _⟩ := k2 fun cur h1 ⟨h2, h3⟩ => hx ⟨cur, h1, h2, h3⟩
      rw [h1]
      exact ⟨c, rfl, h2, h3⟩

/-- **C50** (pausing): a paused deployment says so in its Progressing condition, and one that is not paused does not, unless it says that its deadline has passed, which is left alone;
conditions that are right already are left as they are, those of other types always. -/
theorem C50_paused (now : Int) (paused : Bool) (cs : List Cond) :
    (∀ t, t ≠ "Progressing" → ofType (checkPaused now paused cs) t = ofType cs t) ∧
    (∀ c, getCond cs "Progressing" = some c → c.reason = "ProgressDeadlineExceeded" → checkPaused now paused cs = cs) ∧
    ((∀ c, getCond cs "Progressing" = some c → c.reason ≠ "ProgressDeadlineExceeded") →
      ((∃ c, getCond (checkPaused now paused cs) "Progressing" = some c ∧ c.reason = "DeploymentPaused") ↔ paused = true) ∧
      (((∃ c, getCond cs "Progressing" = some c ∧ c.reason = "DeploymentPaused") ↔ paused = true) → checkPaused now paused cs = cs) ∧
      (∀ c, getCond cs "Progressing" = some c → c.reason = "DeploymentPaused" → paused = false →
        ∃ c', getCond (checkPaused now paused cs) "Progressing" = some c' ∧ c'.status = "Unknown" ∧ c'.reason = "DeploymentResumed")) := by
  have hset : ∀ (r : String), (∀ c, getCond cs "Progressing" = some c → c.reason ≠ r) → ∃ c', getCond (setCond cs (newCond now progressing "Unknown" r)) "Progressing" = some c' ∧
      c'.status = "Unknown" ∧ c'.reason = r := by
    intro r hr
    obtain ⟨_, _, k⟩ := C20_set_condition cs (newCond now progressing "Unknown" r)
    obtain ⟨c', h1, h2, h3, _⟩ := k fun cur h1 ⟨_, h3⟩ => hr cur (by rw [getCond_eq]; exact h1) h3
    exact ⟨c', by rw [getCond_eq, show "Progressing" = (newCond now progressing "Unknown" r).type from rfl, h1]; rfl, h2, h3⟩
  have hoth : ∀ (r : String) (t : String), t ≠ "Progressing" → ofType (setCond cs (newCond now progressing "Unknown" r)) t = ofType cs t :=
    fun r t ht => (C20_set_condition cs (newCond now progressing "Unknown" r)).1 t ht
  unfold checkPaused
  rw [show progressing = "Progressing" from rfl, show timedOutReason = "ProgressDeadlineExceeded" from rfl] at *
  cases hc : getCond cs "Progressing" with
  | none =>
    dsimp only
    refine ⟨fun t ht => ?_, fun c h => (by cases h), fun _ => ⟨?_, ?_, fun c h => (by cases h)⟩⟩
    · split
      · exact hoth _ t ht
      · rfl
    · cases paused with
      | true =>
        obtain ⟨c', h1, _, h2⟩ := hset "DeploymentPaused" fun c h => by rw [hc] at h; cases h
        exact ⟨fun _ => rfl, fun _ => ⟨c', h1, h2⟩⟩
      | false => simp [hc]
    · intro h
      cases paused with
      | true => obtain ⟨c, hx, _⟩ := h.2 rfl; cases hx
      | false => rfl
  | some c =>
    dsimp only
    refine ⟨fun t ht => ?_, fun c' h hr => ?_, fun h0 => ?_⟩
    · repeat' split
      all_goals first | rfl | exact hoth _ t ht
    · cases h; rw [if_pos hr]
    · have hne := h0 c rfl
      rw [if_neg hne]
      by_cases hp : c.reason = "DeploymentPaused"
      · cases paused with
        | true =>
          rw [if_neg (by simp [hp]), if_neg (by simp)]
          exact ⟨⟨fun _ => rfl, fun _ => ⟨c, hc, hp⟩⟩, fun _ => rfl, fun _ _ _ h => by cases h⟩
        | false =>
          rw [if_neg (by simp), if_pos ⟨by simp, hp⟩]
          obtain ⟨c', h1, h2, h3⟩ := hset "DeploymentResumed" fun c1 h1 => by rw [hc] at h1; cases h1; rw [hp]; decide
          refine ⟨⟨?_, fun h => by cases h⟩, fun h => ?_, fun _ _ _ _ => ⟨c', h1, h2, h3⟩⟩
          · rintro ⟨c2, h4, h5⟩
            rw [h1] at h4; cases h4; rw [h3] at h5; exact absurd h5 (by decide)
          · exact absurd (h.1 ⟨c, rfl, hp⟩) (by decide)
      · cases paused with
        | true =>
          rw [if_pos ⟨rfl, hp⟩]
          obtain ⟨c', h1, h2, h3⟩ := hset "DeploymentPaused" fun c1 h1 => by rw [hc] at h1; cases h1; exact hp
          refine ⟨⟨fun _ => rfl, fun _ => ⟨c', h1, h3⟩⟩, fun h => ?_, fun _ _ _ h => by cases h⟩
          obtain ⟨c2, h4, h5⟩ := h.2 rfl
          cases h4; exact absurd h5 hp
        | false =>
          rw [if_neg (by simp), if_neg (by simp [hp])]
          refine ⟨⟨?_, fun h => by cases h⟩, fun _ => rfl, fun c2 h4 h5 => ?_⟩
          · rintro ⟨c2, h4, h5⟩; rw [hc] at h4; cases h4; exact absurd h5 hp
          · cases h4; exact absurd h5 hp

example : setWriteNeeded { replicas := 1, ready := 1 } { replicas := 1, ready := 0 } 3 3 = true := by decide
example : getCond (checkPaused 9 false [⟨"Progressing", "Unknown", "DeploymentPaused", 0, 0⟩]) "Progressing" = some ⟨"Progressing", "Unknown", "DeploymentResumed", 9, 0⟩ := by decide

end MCM.Status
