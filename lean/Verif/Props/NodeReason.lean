import Verif.Model.NodeReason
import Verif.Props.Conditions
import Mathlib.Data.List.Nodup
/-!
C83: a node that is going to be drained says so, and why.
-/
namespace MCM.NodeReason
open MCM MCM.Conditions

/-- the node announces its termination, for this reason -/
def Announces (n : Node) (reason : String) : Prop := ∃ c, n.conds.filter (·.type = "Terminating") = [c] ∧ c.status = "True" ∧ c.reason = reason

/-- the cache of the API server holds earlier versions of the node, and equal versions are equal -/
def Honest (c : Calls) (store : Option Node) : Prop := ∀ n seen, store = some n → c.cached = .ok seen → seen.version = n.version → seen = n

theorem wanted_type (now : Int) (p : Phase) (l : List Cond) : (wanted now p l).type = "Terminating" ∧ (wanted now p l).status = "True" := ⟨rfl, rfl⟩

/-- the run either changes nothing, or sets the wanted condition -/
theorem update_cases (c : Calls) (phase : Phase) (store : Option Node) (hh : Honest c store) :
    (update c phase store).1 = store ∨
    (∃ n, store = some n ∧ phase ≠ .empty ∧ phase ≠ .crashLoopBackOff ∧ (update c phase store) = (some { version := n.version + 1, conds := cloneAndAdd n.conds (wanted c.now phase n.conds) }, none)) := by
  unfold update
  split
  · exact .inl rfl
  · rename_i hp
    cases hr : c.read with
    | some e => left; dsimp only [dropNotFound]; split <;> rfl
    | none =>
      cases hs : store with
      | none => exact .inl rfl
      | some n =>
        subst hs
        dsimp only
        unfold setCond
        cases hc : c.cached with
        | error e => left; dsimp only [dropNotFound]; split <;> rfl
        | ok seen =>
          cases hw : c.write with
          | some e => left; dsimp only [dropNotFound]; split <;> rfl
          | none =>
            dsimp only
            split
            · rename_i hv
              right
              have := hh n seen rfl hc hv
              subst this
              exact ⟨seen, rfl, fun h => hp (.inl h), fun h => hp (.inr h), rfl⟩
            · left; dsimp only [dropNotFound]; split <;> rfl

/-- C83, the announcement: If the update reports success, and no call answered that the node is missing, the node announces its termination; all other
conditions are as before. -/
theorem C83_announced (c : Calls) (phase : Phase) (n : Node) (hh : Honest c (some n)) (hp : phase ≠ .empty ∧ phase ≠ .crashLoopBackOff)
    (hr : c.read ≠ some .notFound) (hc : c.cached ≠ .error .notFound) (hok : (update c phase (some n)).2 = none) :
    ∃ n' r, (update c phase (some n)).1 = some n' ∧ Announces n' r ∧ n'.conds.filter (·.type ≠ "Terminating") = n.conds.filter (·.type ≠ "Terminating") := by
  have hcases := update_cases c phase (some n) hh
  rcases hcases with h | ⟨m, hm, _, _, h⟩
  · exfalso
    revert hok h
    unfold update
    rw [if_neg (fun h => h.elim hp.1 hp.2)]
    cases hr' : c.read with
    | some e => cases e <;> simp_all [dropNotFound]
    | none =>
      dsimp only
      unfold setCond
      cases hc' : c.cached with
      | error e => cases e <;> simp_all [dropNotFound]
      | ok seen =>
        cases hw : c.write with
        | some e => simp [dropNotFound]
        | none =>
          dsimp only
          split
          · intro h1 h2
            simp only [dropNotFound] at h2
            have := congrArg (fun o : Option Node => o.map (·.version)) h2
            simp at this
          · simp [dropNotFound]
  · cases hm
    rw [h]
    obtain ⟨new, h1, h2, h3, h4, h5, h6⟩ := C41_add n.conds (wanted c.now phase n.conds) (show "Terminating" ≠ "" by decide) (show "True" ≠ "" by decide)
    exact ⟨_, _, rfl, ⟨new, h1, h2, rfl⟩, h6⟩

/-- C83: What is announced once is not changed any more by the termination: reason, message and, from then on, the time. -/
theorem C83_reason_stays (c : Calls) (n : Node) (hh : Honest c (some n)) (old : Cond) (hu : (n.conds.map (·.type)).Nodup) (ho : old ∈ n.conds) (ht : old.type = "Terminating")
    (n' : Node) (hn : (update c .terminating (some n)).1 = some n') :
    ∃ new ∈ n'.conds, new.type = "Terminating" ∧ new.reason = old.reason ∧ new.message = old.message ∧ (old.status = "True" → new.transition = old.transition) := by
  have hfind : n.conds.find? (·.type = condType) = some old := by
    cases hf : n.conds.find? (·.type = condType) with
    | none =>
      have := List.find?_eq_none.1 hf old ho
      simp [ht, condType] at this
    | some d =>
      have hd := List.mem_of_find?_eq_some hf
      have hdt : d.type = condType := by simpa using List.find?_some hf
      have := List.inj_on_of_nodup_map hu hd ho (by rw [hdt, ht]; rfl)
      rw [this]
  rcases update_cases c .terminating (some n) hh with h | ⟨m, hm, _, _, h⟩
  · rw [h] at hn; cases hn
    exact ⟨old, ho, ht, rfl, rfl, fun _ => rfl⟩
  · cases hm
    rw [h] at hn
    cases hn
    have hw : (wanted c.now .terminating n.conds).reason = old.reason ∧ (wanted c.now .terminating n.conds).message = old.message := by
      unfold wanted; rw [hfind]; exact ⟨rfl, rfl⟩
    obtain ⟨new, h1, h2, h3, h4, h5, h6⟩ := C41_add n.conds (wanted c.now .terminating n.conds) (show "Terminating" ≠ "" by decide) (show "True" ≠ "" by decide)
    have hmem : new ∈ (cloneAndAdd n.conds (wanted c.now .terminating n.conds)).filter (·.type = (wanted c.now .terminating n.conds).type) := by
      rw [h1]; exact List.mem_cons_self
    rw [List.mem_filter] at hmem
    have hnt : new.type = (wanted c.now .terminating n.conds).type := by simpa using hmem.2
    refine ⟨new, hmem.1, hnt, h3.trans hw.1, h4.trans hw.2, fun hs => ?_⟩
    exact (C41_transition n.conds _ (show "Terminating" ≠ "" by decide) (show "True" ≠ "" by decide) hu new hmem.1 hnt).1 old ho ht hs hw.1.symm

/-- a drain, which is preceded by the update, is run only for machines in phase Terminating -/
theorem C83_drained_terminating (e : Termination.Env) (v : Termination.Obj) (f : Bool) (err : Option String) (h : Termination.Event.drained f err ∈ (Termination.flow e v).events) :
    v.st.phase = .terminating := by
  apply Decidable.byContradiction
  intro hp
  unfold Termination.flow at h
  split at h
  · exact absurd h List.not_mem_nil
  · unfold Termination.setTerminating at h
    exact absurd h List.not_mem_nil

/-- what happens to the node: runs of the update in the deletion flow (which are all made in phase Terminating), and changes of its other conditions by others -/
inductive Reach : Node → Node → Prop
  | refl (n : Node) : Reach n n
  | run (n m m' : Node) (c : Calls) : Reach n m → Honest c (some m) → (update c .terminating (some m)).1 = some m' → Reach n m'
  | other (n m m' : Node) : Reach n m → m'.conds.filter (·.type = "Terminating") = m.conds.filter (·.type = "Terminating") → Reach n m'

/-- the reasons given for the termination -/
def reasons (n : Node) : List String := (n.conds.filter (·.type = "Terminating")).map (·.reason)

/-- C83, false: The reason is "ScaleDown" whatever the machine was before: starting from a node that announces nothing, no run of the controller and no sequence of runs
ever gives the reason "Unhealthy", although the phase Failed is meant to be given this reason. -/
theorem C83_unhealthy_never_given_false (n m : Node) (h : Reach n m) (h0 : reasons n = []) : ∀ r ∈ reasons m, r = "ScaleDown" := by
  induction h with
  | refl => intro r hr; rw [h0] at hr; exact absurd hr List.not_mem_nil
  | other m m' hr he ih =>
    intro r hr'
    unfold reasons at hr'
    rw [he] at hr'
    exact ih r hr'
  | run m m' c hr hh hu ih =>
    intro r hr'
    rcases update_cases c .terminating (some m) hh with h | ⟨k, hk, _, _, h⟩
    · rw [h] at hu; cases hu; exact ih r hr'
    · cases hk
      rw [h] at hu
      cases hu
      obtain ⟨new, h1, h2, h3, h4, h5, h6⟩ := C41_add m.conds (wanted c.now .terminating m.conds) (show "Terminating" ≠ "" by decide) (show "True" ≠ "" by decide)
      unfold reasons at hr'
      dsimp only at hr'
      rw [show (cloneAndAdd m.conds (wanted c.now .terminating m.conds)).filter (·.type = "Terminating") = [new] from h1] at hr'
      simp only [List.map_cons, List.map_nil, List.mem_singleton] at hr'
      rw [hr', h3]
      unfold wanted
      cases hf : m.conds.find? (·.type = condType) with
      | none => rfl
      | some d =>
        have hd := List.mem_of_find?_eq_some hf
        have hdt := List.find?_some hf
        exact ih d.reason (List.mem_map.2 ⟨d, List.mem_filter.2 ⟨hd, hdt⟩, rfl⟩)

/-- what the function is written for: a failed machine's node would be called unhealthy -/
theorem C83_intended_reason (c : Calls) (n : Node) (hr : c.read = none) (hc : c.cached = .ok n) (hw : c.write = none) :
    ∃ n', (update c .failed (some n)).1 = some n' ∧ Announces n' "Unhealthy" ∧
      ∀ x ∈ n'.conds, x.type = "Terminating" → x.message = "Machine Controller is terminating failed machine" := by
  refine ⟨{ version := n.version + 1, conds := cloneAndAdd n.conds (wanted c.now .failed n.conds) }, ?_, ?_⟩
  · unfold update
    rw [if_neg (by decide), hr]
    dsimp only
    unfold setCond
    rw [hc, hw]
    dsimp only
    rw [if_pos rfl]
    rfl
  · obtain ⟨new, h1, h2, h3, h4, h5, h6⟩ := C41_add n.conds (wanted c.now .failed n.conds) (show "Terminating" ≠ "" by decide) (show "True" ≠ "" by decide)
    have hw : (wanted c.now .failed n.conds).reason = "Unhealthy" ∧ (wanted c.now .failed n.conds).message = "Machine Controller is terminating failed machine" := by
      unfold wanted
      cases n.conds.find? (·.type = condType) <;> exact ⟨rfl, rfl⟩
    refine ⟨⟨new, h1, h2, h3.trans hw.1⟩, fun x hx ht => ?_⟩
    have h1 : (cloneAndAdd n.conds (wanted c.now .failed n.conds)).filter (·.type = "Terminating") = [new] := h1
    have : x ∈ [new] := by rw [← h1]; exact List.mem_filter.2 ⟨hx, by simpa using ht⟩
    rw [List.mem_singleton.1 this]
    exact h4.trans hw.2

/-- C83, false part: A conflict, which is normal because the kubelet writes the same object, is not retried; the update fails and an ordinary drain is put off. -/
theorem C83_conflict_not_retried_false (c : Calls) (n seen : Node) (hr : c.read = none) (hc : c.cached = .ok seen) (hv : seen.version ≠ n.version) :
    update c .terminating (some n) = (some n, some .other) := by
  unfold update
  rw [if_neg (by decide), hr]
  dsimp only
  unfold setCond
  rw [hc]
  dsimp only
  cases c.write with
  | some e => rfl
  | none => dsimp only; rw [if_neg hv]; rfl

example : update { now := 9, cached := .ok { version := 3, conds := [{ type := "Ready", status := "True" }] } } .terminating
    (some { version := 3, conds := [{ type := "Ready", status := "True" }] }) =
    (some { version := 4, conds := [{ type := "Ready", status := "True" },
      { type := "Terminating", status := "True", reason := "ScaleDown", message := "Machine Controller is scaling down machine", heartbeat := 9, transition := 9 }] }, none) := by decide +kernel

end MCM.NodeReason
