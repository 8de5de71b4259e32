import Verif.Model.Fleet
import Verif.Props.LifecycleLive
import Verif.Props.TerminationLive
import Verif.Props.MachineSet
/-!
C97: undisturbed, the controllers together turn any population of machines into exactly the desired one.
-/
namespace MCM.Fleet
open MCM MCM.Similar
open MCM.Termination (NameLike Terminating Coop left reached)
open MCM.Lifecycle (Good Left)

/-! ### Undisturbed runs -/

/-- a machine as the machine set controller creates it; its template does not mark it for deletion -/
def Fresh (m : M) : Prop :=
  ∃ v x, m = .live [] v x ∧ Lifecycle.New v ∧ v.finalizer = false ∧ NameLike v.name ∧ v.prio ≠ some "1" ∧ x.trig = false

/-- what a step is -/
inductive Lab
  | set
  /-- the machine of this name was served -/
  | served (n : String)
  /-- a run of the termination soon after the last one, whose write may be held back -/
  | early
deriving DecidableEq

/-- One undisturbed run of one of the controllers. -/
inductive Step (ms : MachineSet.MSet) (s : Fleet) : Lab → Fleet → Prop
  | set (srt : List Machine → List Machine) (now : Int) (new : List M) : (∀ l, (srt l).Perm l) → new.length = (plan srt ms s.ms).issued →
      (∀ m ∈ new, Fresh m) → ((s.ms ++ new).map M.name).Nodup → Step ms s .set (s.after (setRun srt now ms s.ms) new)
  | machine (e : Lifecycle.Env) (vm : Creation.VM) (vms : List Creation.VM) (v : Lifecycle.Obj) (x : Extra) : .live vms v x ∈ s.ms → Good e vm v →
      NameLike vm.node → Step ms s (.served v.name) (s.after (machineRun v.name e vm) [])
  | late (e : Termination.Env) (vms : List Creation.VM) (t : Termination.Obj) (prio : Option String) (created : Int) (trig : Bool) :
      .dying vms t prio created trig ∈ s.ms → Coop e → t.st.opTime + tolerance < e.now →
      Step ms s (.served t.name) (s.after (termRun t.name e) [])
  | early (e : Termination.Env) (vms : List Creation.VM) (t : Termination.Obj) (prio : Option String) (created : Int) (trig : Bool) :
      .dying vms t prio created trig ∈ s.ms → Coop e → Step ms s .early (s.after (termRun t.name e) [])

inductive Steps (ms : MachineSet.MSet) : Fleet → List Lab → Fleet → Prop
  | nil (s : Fleet) : Steps ms s [] s
  | cons {s s1 s2 : Fleet} {l : Lab} {ls : List Lab} : Step ms s l s1 → Steps ms s1 ls s2 → Steps ms s (l :: ls) s2

/-- Steps in any order, among them at least one run of the machine set controller, and one run for every machine that is there, in the same state of
living or dying, before and after. -/
def Epoch (ms : MachineSet.MSet) (s s' : Fleet) : Prop :=
  ∃ ls, Steps ms s ls s' ∧ .set ∈ ls ∧ ∀ m ∈ s.ms, ∀ m' ∈ s'.ms, m.name = m'.name → m.isDying = m'.isDying → .served m.name ∈ ls

inductive Epochs (ms : MachineSet.MSet) : Nat → Fleet → Fleet → Prop
  | zero (s : Fleet) : Epochs ms 0 s s
  | succ {n : Nat} {s s1 s2 : Fleet} : Epoch ms s s1 → Epochs ms n s1 s2 → Epochs ms (n + 1) s s2

/-- A machine in any phase, with or without a VM. A living machine either has recorded no VM, or exactly the one that exists; it has the finalizer
if it has a VM; it is not being called terminating without being deleted. A machine being deleted has the finalizer; if its status says that the VM
is deleted, then it is. -/
def Ok : M → Prop
  | .live vms v _ => NameLike v.name ∧ v.deleting = false ∧ (v.conds.map (·.type)).Nodup ∧ v.st.phase ≠ .terminating ∧
      (v.finalizer = false → vms = []) ∧ (∀ y ∈ vms, NameLike y.node) ∧ ∃ k ≤ 4, Left vms v k
  | .dying vms t _ _ _ => Terminating t ∧ (4 ≤ reached t → vms = [])

/-- a population of machines with different names; no VM is left behind -/
structure Start (s : Fleet) : Prop where
  ok : ∀ m ∈ s.ms, Ok m
  names : (s.ms.map M.name).Nodup
  orphans : s.orphans = []

/-- the number of machines that the set is to have: none when it is being deleted -/
def goal (ms : MachineSet.MSet) : Nat := if ms.deleting then 0 else ms.replicas

/-! ### The invariant -/

theorem after_mem {s : Fleet} {f : M → Option M} {new : List M} {m' : M} (h : m' ∈ (s.after f new).ms) :
    (∃ m ∈ s.ms, f m = some m') ∨ m' ∈ new := by
  unfold Fleet.after at h
  dsimp only at h
  rcases List.mem_append.1 h with h | h
  · exact .inl (List.mem_filterMap.1 h)
  · exact .inr h

/-- names are kept -/
def Names (f : M → Option M) (l : List M) : Prop := ∀ m ∈ l, ∀ m', f m = some m' → m'.name = m.name

theorem names_sublist {f : M → Option M} : ∀ {l : List M}, Names f l → ((l.filterMap f).map M.name).Sublist (l.map M.name)
  | [], _ => .slnil
  | a :: l, hf => by
    have ih := names_sublist (l := l) (fun m hm => hf m (List.mem_cons_of_mem _ hm))
    rw [List.filterMap_cons]
    cases h : f a with
    | none => exact ih.cons _
    | some b => simp only [List.map_cons, hf a (by simp) b h]; exact ih.cons_cons _

theorem after_names {s : Fleet} {f : M → Option M} (hf : Names f s.ms) {new : List M} (h : ((s.ms ++ new).map M.name).Nodup) :
    ((s.after f new).ms.map M.name).Nodup := by
  unfold Fleet.after
  dsimp only
  rw [List.map_append] at h ⊢
  exact List.Nodup.sublist ((names_sublist hf).append (List.Sublist.refl _)) h

theorem after_orphans {s : Fleet} {f : M → Option M} {new : List M} (h0 : s.orphans = []) (h : ∀ m ∈ s.ms, f m = none → m.vms = []) :
    (s.after f new).orphans = [] := by
  unfold Fleet.after
  dsimp only
  rw [h0, List.nil_append, List.flatMap_eq_nil_iff]
  intro m hm
  cases hf : f m with
  | none => exact h m hm hf
  | some _ => rfl

theorem unique {l : List M} (h : (l.map M.name).Nodup) {a b : M} (ha : a ∈ l) (hb : b ∈ l) (hab : a.name = b.name) : a = b := by
  induction l with
  | nil => cases ha
  | cons x l ih =>
    rw [List.map_cons, List.nodup_cons] at h
    rcases List.mem_cons.1 ha with ha' | ha' <;> rcases List.mem_cons.1 hb with hb' | hb'
    · rw [ha', hb']
    · exact absurd (show x.name ∈ l.map M.name from List.mem_map.2 ⟨b, hb', by rw [← hab, ha']⟩) h.1
    · exact absurd (show x.name ∈ l.map M.name from List.mem_map.2 ⟨a, ha', by rw [hab, hb']⟩) h.1
    · exact ih h.2 ha' hb'

theorem left_node {vms : List Creation.VM} {v : Lifecycle.Obj} {k : Nat} (h : Left vms v k) (hv : ∀ y ∈ vms, NameLike y.node) :
    NameLike (v.node.getD "") := by
  have un : Lifecycle.Unrecorded vms v → NameLike (v.node.getD "") := by
    rintro ⟨h, _⟩; rw [h]; unfold NameLike; decide
  have re : Lifecycle.Recorded vms v → NameLike (v.node.getD "") := by
    rintro ⟨y, h1, _, h2, _⟩; rw [h2]; exact hv y (by rw [h1]; simp)
  cases h with
  | bare _ h => exact un h
  | unrecorded _ h => exact un h
  | recorded h _ => exact re h
  | waiting h _ _ => exact re h
  | running h _ => exact re h

theorem announced_decode : Termination.decode "Deleting machine from cloud provider" = none := by decide +kernel

theorem kill_ok (now : Int) {m m' : M} (h : Ok m) (hk : kill now m = some m') : m'.name = m.name ∧ Ok m' := by
  cases m with
  | live vms v x =>
    unfold kill at hk
    dsimp only at hk
    split at hk
    · rename_i hf
      cases hk
      obtain ⟨h1, h2, h3, h4, h5, h6, k, _, h7⟩ := h
      refine ⟨rfl, ⟨hf, by simp [announced], h1, left_node h7 h6⟩, ?_⟩
      intro hr
      exfalso
      revert hr
      unfold reached announced
      dsimp only
      rw [if_pos rfl, announced_decode]
      decide
    · cases hk
  | dying vms t p c tr => cases hk; exact ⟨rfl, h⟩

theorem setRun_ok {srt : List Machine → List Machine} {now : Int} {ms : MachineSet.MSet} {w : List M} {m m' : M} (h : Ok m)
    (hk : setRun srt now ms w m = some m') : m'.name = m.name ∧ Ok m' := by
  unfold setRun at hk
  split at hk
  · exact kill_ok now h hk
  · cases hk; exact ⟨rfl, h⟩

theorem setRun_none {srt : List Machine → List Machine} {now : Int} {ms : MachineSet.MSet} {w : List M} {m : M} (h : Ok m)
    (hk : setRun srt now ms w m = none) : m.vms = [] := by
  unfold setRun at hk
  split at hk
  · cases m with
    | live vms v x =>
      unfold kill at hk
      dsimp only at hk
      split at hk
      · cases hk
      · rename_i hf
        exact h.2.2.2.2.1 (by simpa using hf)
    | dying _ _ _ _ _ => cases hk
  · cases hk

theorem live_vms {e : Lifecycle.Env} {vm : Creation.VM} {vms : List Creation.VM} {v : Lifecycle.Obj} {y : Creation.VM}
    (h : y ∈ (Lifecycle.live e vm (vms, v)).1) : y ∈ vms ∨ y = vm := by
  unfold Lifecycle.live at h
  dsimp only at h
  split at h
  · rcases List.mem_cons.1 h with h | h
    · exact .inr h
    · exact .inl h
  · exact .inl h

theorem left_le {vms : List Creation.VM} {v : Lifecycle.Obj} {k : Nat} (h : Left vms v k) : k ≤ 4 := by cases h <;> omega

/-- a good run keeps a living machine in order -/
theorem live_ok {e : Lifecycle.Env} {vm : Creation.VM} {vms : List Creation.VM} {v : Lifecycle.Obj} {x : Extra} (hg : Good e vm v)
    (hnl : NameLike vm.node) (h : Ok (.live vms v x)) :
    Ok (.live (Lifecycle.live e vm (vms, v)).1 (Lifecycle.live e vm (vms, v)).2 x) ∧ (Lifecycle.live e vm (vms, v)).2.name = v.name := by
  obtain ⟨h1, h2, h3, h4, h5, h6, k, _, h7⟩ := h
  obtain ⟨⟨j, _, hl⟩, s1, s2, s3, s4, s5, s6, s7⟩ := Lifecycle.live_left hg h2 h3 h7
  refine ⟨⟨by rw [s2]; exact h1, s1, s4, ?_, ?_, ?_, j, left_le hl, hl⟩, s2⟩
  · rcases s6 with h | ⟨h, _⟩ | h <;> rw [h]
    · exact h4
    · simp
    · simp
  · intro hf
    exfalso
    cases hl with
    | bare _ _ => have := left_le h7; omega
    | unrecorded h _ => rw [h] at hf; cases hf
    | recorded h _ => obtain ⟨_, _, h, _⟩ := h; rw [h] at hf; cases hf
    | waiting h _ _ => obtain ⟨_, _, h, _⟩ := h; rw [h] at hf; cases hf
    | running h _ => obtain ⟨_, _, h, _⟩ := h; rw [h] at hf; cases hf
  · intro y hy
    rcases live_vms hy with h | h
    · exact h6 y h
    · rw [h]; exact hnl

theorem machineRun_ok {s : Fleet} (hs : Start s) {e : Lifecycle.Env} {vm : Creation.VM} {vms : List Creation.VM} {v : Lifecycle.Obj} {x : Extra}
    (hm : .live vms v x ∈ s.ms) (hg : Good e vm v) (hnl : NameLike vm.node) :
    ∀ m ∈ s.ms, ∃ m', machineRun v.name e vm m = some m' ∧ m'.name = m.name ∧ Ok m' := by
  intro m hmem
  have hok := hs.ok m hmem
  cases m with
  | dying vms t p c tr => exact ⟨_, rfl, rfl, hok⟩
  | live vms' v' x' =>
    unfold machineRun
    dsimp only
    split
    · rename_i heq
      cases unique hs.names hmem hm heq
      obtain ⟨h1, h2⟩ := live_ok hg hnl hok
      exact ⟨_, rfl, h2, h1⟩
    · exact ⟨_, rfl, rfl, hok⟩

theorem confirms_iff (x : Termination.Event) : confirms x = true ↔ Termination.VMGone x := by
  cases x with
  | deleteVM d ans =>
    unfold confirms Termination.VMGone
    dsimp only
    cases h : ans.err with
    | none => simp
    | some text =>
      dsimp only
      split
      · rename_i m hm; simp [hm]
      · rename_i hm
        simp only [Bool.false_eq_true, reduceCtorEq, false_or, false_iff, not_exists, Option.some.injEq]
        rintro t m ⟨rfl, h2⟩
        exact hm m h2
  | _ => simp [confirms, Termination.VMGone]

/-- the ways a run of the termination can go -/
theorem run_cases (e : Termination.Env) (t : Termination.Obj) : Termination.run e t = t ∨ (∃ n, Termination.run e t = { t with node := n }) ∨
    ∃ wr, (Termination.flow e t).write = some wr ∧ Termination.applyWrite e t wr = some (Termination.run e t) ∧ e.classOk = true := by
  have hafter : e.classOk = true → Termination.run e t = Termination.run.afterFlow e t → Termination.run e t = t ∨
      (∃ n, Termination.run e t = { t with node := n }) ∨
      ∃ wr, (Termination.flow e t).write = some wr ∧ Termination.applyWrite e t wr = some (Termination.run e t) ∧ e.classOk = true := by
    intro hc h
    rw [h]
    unfold Termination.run.afterFlow
    cases hw : (Termination.flow e t).write with
    | none => exact .inl rfl
    | some wr =>
      dsimp only
      cases ha : Termination.applyWrite e t wr with
      | none => exact .inl rfl
      | some o => exact .inr (.inr ⟨wr, rfl, ha, hc⟩)
  cases hc : e.classOk with
  | false => left; unfold Termination.run; rw [if_pos (by simp [hc])]
  | true =>
    rw [hc] at hafter
    cases hl : Termination.labelOf e t with
    | none => exact hafter rfl (by unfold Termination.run; rw [if_neg (by simp [hc]), hl])
    | some n =>
      by_cases hn : n ≠ t.node
      · exact .inr (.inl ⟨n, by unfold Termination.run; rw [if_neg (by simp [hc]), hl]; dsimp only; rw [if_pos hn]⟩)
      · exact hafter rfl (by unfold Termination.run; rw [if_neg (by simp [hc]), hl]; dsimp only; rw [if_neg hn])

/-- what a run of the termination leaves -/
theorem term_reached {e : Termination.Env} {t : Termination.Obj} (h : 4 ≤ reached (Termination.run e t)) :
    4 ≤ reached t ∨ (e.classOk && (Termination.flow e t).events.any confirms) = true := by
  rcases run_cases e t with h1 | ⟨n, h1⟩ | ⟨wr, h1, h2, h3⟩
  · rw [h1] at h; exact .inl h
  · rw [h1] at h; exact .inl h
  · rcases (Termination.flow_advance e t _ wr h1 h2).2.1 h with h | ⟨x, hx, hg⟩
    · exact .inl h
    · refine .inr ?_
      rw [h3, Bool.true_and, List.any_eq_true]
      exact ⟨x, hx, (confirms_iff x).2 hg⟩

theorem applyWrite_keeps {e : Termination.Env} {t o : Termination.Obj} {wr : Termination.Write} (h : Termination.applyWrite e t wr = some o) :
    o.name = t.name ∧ (wr = .dropFinalizer ∨ o.finalizer = t.finalizer) := by
  cases wr with
  | dropFinalizer => rw [Termination.applyWrite] at h; cases h; exact ⟨rfl, .inl rfl⟩
  | status b new =>
    cases b with
    | false => rw [Termination.applyWrite] at h; cases h; exact ⟨rfl, .inr rfl⟩
    | true =>
      rw [Termination.applyWrite] at h
      split at h
      · cases h
      · cases h; exact ⟨rfl, .inr rfl⟩

theorem term_name (e : Termination.Env) (t : Termination.Obj) : (Termination.run e t).name = t.name := by
  rcases run_cases e t with h1 | ⟨n, h1⟩ | ⟨wr, h1, h2, h3⟩
  · rw [h1]
  · rw [h1]
  · exact (applyWrite_keeps h2).1

theorem term_fin {e : Termination.Env} {t : Termination.Obj} (h0 : t.finalizer = true) (h : (Termination.run e t).finalizer = false) :
    4 ≤ reached t := by
  rcases run_cases e t with h1 | ⟨n, h1⟩ | ⟨wr, h1, h2, h3⟩
  · rw [h1, h0] at h; cases h
  · rw [h1] at h
    rw [show ({ t with node := n } : Termination.Obj).finalizer = t.finalizer from rfl, h0] at h
    cases h
  · rcases (applyWrite_keeps h2).2 with h4 | h4
    · rw [h4] at h1
      rw [(Termination.flow_calls e t).1 h1]
      decide
    · rw [h4, h0] at h; cases h

/-- once a run of the termination was made, the phase says so -/
theorem term_phase {e : Termination.Env} {t : Termination.Obj} (ht : Terminating t) (hc : Coop e) :
    (Termination.run e t).st.phase = .terminating := by
  by_cases hp : t.st.phase = .terminating
  · rcases run_cases e t with h1 | ⟨n, h1⟩ | ⟨wr, h1, h2, h3⟩
    · rw [h1]; exact hp
    · rw [h1]; exact hp
    · rcases Lifecycle.flow_phase h1 h2 with h | h
      · exact h
      · rw [h]; exact hp
  · have hl : Termination.labelOf e t = none := by unfold Termination.labelOf; rw [if_neg (by simp [hp])]
    unfold Termination.run
    rw [if_neg (by simp [hc.cls]), hl]
    dsimp only
    unfold Termination.run.afterFlow Termination.flow
    rw [if_neg (by simp [ht.fin]), if_pos hp]
    rfl

theorem termRun_ok {n : String} {e : Termination.Env} (hc : Coop e) {m m' : M} (h : Ok m) (hk : termRun n e m = some m') :
    m'.name = m.name ∧ Ok m' := by
  cases m with
  | live vms v x => cases hk; exact ⟨rfl, h⟩
  | dying vms t p c tr =>
    unfold termRun at hk
    dsimp only at hk
    split at hk
    · split at hk
      · rename_i hf
        cases hk
        refine ⟨term_name e t, ?_, ?_⟩
        · rcases (Termination.run_progress h.1 hc).term with h1 | h1
          · rw [h1] at hf; cases hf
          · exact h1
        · intro hr
          unfold vmsAfter
          split
          · rfl
          · rename_i hno
            rcases term_reached hr with h1 | h1
            · exact h.2 h1
            · exact absurd h1 hno
      · cases hk
    · cases hk; exact ⟨rfl, h⟩

theorem termRun_none {n : String} {e : Termination.Env} {m : M} (h : Ok m) (hk : termRun n e m = none) : m.vms = [] := by
  cases m with
  | live vms v x => cases hk
  | dying vms t p c tr =>
    unfold termRun at hk
    dsimp only at hk
    split at hk
    · split at hk
      · cases hk
      · rename_i hf
        exact h.2 (term_fin h.1.fin (by simpa using hf))
    · cases hk

theorem fresh_ok {m : M} (h : Fresh m) : Ok m := by
  obtain ⟨v, x, rfl, ⟨h1, h2, h3, h4, h5⟩, h6, h7, h8, h9⟩ := h
  refine ⟨h7, h5, by rw [h2]; simp, by rw [h1]; simp, fun _ => rfl, by simp, 4, Nat.le_refl _, .bare h6 ⟨h3, h4, by simp, by simp⟩⟩

/-- every step keeps the population in order -/
theorem step_start {ms : MachineSet.MSet} {s s' : Fleet} {l : Lab} (hs : Start s) (h : Step ms s l s') : Start s' := by
  cases h with
  | set srt now new h1 h2 h3 h4 =>
    refine ⟨fun m hm => ?_, after_names (fun m hm m' h => (setRun_ok (hs.ok m hm) h).1) h4,
      after_orphans hs.orphans fun m hm h => setRun_none (hs.ok m hm) h⟩
    rcases after_mem hm with ⟨a, ha, h⟩ | h
    · exact (setRun_ok (hs.ok a ha) h).2
    · exact fresh_ok (h3 m h)
  | machine e vm vms v x h1 h2 h3 =>
    have hk := machineRun_ok hs h1 h2 h3
    refine ⟨fun m hm => ?_, after_names (fun m hm m' h => ?_) (by rw [List.append_nil]; exact hs.names), after_orphans hs.orphans fun m hm h => ?_⟩
    · rcases after_mem hm with ⟨a, ha, h⟩ | h
      · obtain ⟨m', h4, h5, h6⟩ := hk a ha
        rw [h4] at h; cases h; exact h6
      · cases h
    · obtain ⟨m'', h4, h5, h6⟩ := hk m hm
      rw [h4] at h; cases h; exact h5
    · obtain ⟨m'', h4, h5, h6⟩ := hk m hm
      rw [h4] at h; cases h
  | late e vms t p c tr h1 h2 h3 =>
    refine ⟨fun m hm => ?_, after_names (fun m hm m' h => (termRun_ok h2 (hs.ok m hm) h).1) (by rw [List.append_nil]; exact hs.names),
      after_orphans hs.orphans fun m hm h => termRun_none (hs.ok m hm) h⟩
    rcases after_mem hm with ⟨a, ha, h⟩ | h
    · exact (termRun_ok h2 (hs.ok a ha) h).2
    · cases h
  | early e vms t p c tr h1 h2 =>
    refine ⟨fun m hm => ?_, after_names (fun m hm m' h => (termRun_ok h2 (hs.ok m hm) h).1) (by rw [List.append_nil]; exact hs.names),
      after_orphans hs.orphans fun m hm h => termRun_none (hs.ok m hm) h⟩
    rcases after_mem hm with ⟨a, ha, h⟩ | h
    · exact (termRun_ok h2 (hs.ok a ha) h).2
    · cases h

theorem steps_start {ms : MachineSet.MSet} {s s' : Fleet} {ls : List Lab} (hs : Start s) (h : Steps ms s ls s') : Start s' := by
  induction h with
  | nil _ => exact hs
  | cons h1 _ ih => exact ih (step_start hs h1)

/-! ### Counting -/

/-- the number of living machines -/
def lives (w : List M) : Nat := (w.filter fun m => !m.isDying).length

/-- no living machine is failed or marked for deletion -/
def NoStale (w : List M) : Prop := ∀ m ∈ w, m.isDying = false → MachineSet.isStale (view m) = false

/-- the phase of every machine being deleted says so -/
def Marked (w : List M) : Prop := ∀ m ∈ w, m.isDying = true → (view m).phase = .terminating

theorem fresh_live {m : M} (h : Fresh m) : m.isDying = false := by
  obtain ⟨v, x, rfl, _⟩ := h; rfl

theorem kill_dying {now : Int} {m m' : M} (h : kill now m = some m') : m'.isDying = true := by
  cases m with
  | live vms v x =>
    unfold kill at h
    dsimp only at h
    split at h
    · cases h; rfl
    · cases h
  | dying vms t p c tr => cases h; rfl

theorem view_name (m : M) : (view m).name = m.name := by cases m <;> rfl

theorem lives_append (a b : List M) : lives (a ++ b) = lives a + lives b := by
  unfold lives; rw [List.filter_append, List.length_append]

theorem lives_fresh {l : List M} (h : ∀ m ∈ l, Fresh m) : lives l = l.length := by
  unfold lives
  rw [List.filter_eq_self.2]
  intro m hm
  rw [fresh_live (h m hm)]; rfl

theorem lives_kill (now : Int) (T : List String) (w : List M) :
    lives (w.filterMap fun m => if m.name ∈ T then kill now m else some m) = (w.filter fun m => !m.isDying && !decide (m.name ∈ T)).length := by
  induction w with
  | nil => rfl
  | cons a w ih =>
    rw [List.filterMap_cons, List.filter_cons]
    by_cases ha : a.name ∈ T
    · rw [if_pos ha]
      have hz : (!a.isDying && !decide (a.name ∈ T)) = false := by simp [ha]
      rw [hz, if_neg (by simp), ← ih]
      cases hk : kill now a with
      | none => rfl
      | some b =>
        dsimp only
        unfold lives
        rw [List.filter_cons_of_neg (by rw [kill_dying hk]; simp)]
    · rw [if_neg ha]
      dsimp only
      have hz : (!a.isDying && !decide (a.name ∈ T)) = !a.isDying := by simp [ha]
      rw [hz]
      unfold lives at ih ⊢
      rw [List.filter_cons]
      split
      · rw [List.length_cons, List.length_cons, ih]
      · exact ih

theorem lives_set (srt : List Machine → List Machine) (now : Int) (ms : MachineSet.MSet) (s : Fleet) (new : List M) (hn : ∀ m ∈ new, Fresh m) :
    lives (s.after (setRun srt now ms s.ms) new).ms =
      (s.ms.filter fun m => !m.isDying && !decide (m.name ∈ targets (plan srt ms s.ms))).length + new.length := by
  unfold Fleet.after
  dsimp only
  rw [lives_append, lives_fresh hn]
  exact congrArg (· + new.length) (lives_kill now _ s.ms)

/-- the machines that the machine set controller counts -/
theorem counted (w : List M) : MachineSet.specLiveCount (w.map view) = (w.filter fun m => MachineSet.isLive (view m)).length := by
  rw [MachineSet.specLiveCount_eq, List.filter_map, List.length_map]; rfl

theorem filter_le {α : Type} {p q : α → Bool} {l : List α} (h : ∀ a ∈ l, p a = true → q a = true) : (l.filter p).length ≤ (l.filter q).length := by
  rw [← List.countP_eq_length_filter, ← List.countP_eq_length_filter]
  exact List.countP_mono_left h

theorem filter_eq {α : Type} {p q : α → Bool} {l : List α} (h : ∀ a ∈ l, p a = q a) : l.filter p = l.filter q := List.filter_congr h

theorem plan_of {srt : List Machine → List Machine} {ms : MachineSet.MSet} {w : List M} (h : ms.deleting = false) :
    plan srt ms w = MachineSet.manageReplicas srt allCreated (w.map view) ms := by
  unfold plan; rw [h]; rfl

theorem goal_of {ms : MachineSet.MSet} (h : ms.deleting = false) : goal ms = ms.replicas := by unfold goal; rw [h]; rfl

/-- all machines of a set that is being deleted are deleted -/
theorem wiped {srt : List Machine → List Machine} {ms : MachineSet.MSet} {w : List M} {m : M} (hx : ms.deleting = true) (hm : m ∈ w) :
    m.name ∈ targets (plan srt ms w) := by
  unfold targets plan
  rw [if_pos hx, List.nil_append]
  exact List.mem_map.2 ⟨view m, List.mem_map.2 ⟨m, hm, rfl⟩, view_name m⟩

/-- no machine is created for a set that is being deleted -/
theorem unissued {srt : List Machine → List Machine} {ms : MachineSet.MSet} {w : List M} (hx : ms.deleting = true) : (plan srt ms w).issued = 0 := by
  unfold plan; rw [if_pos hx]; rfl

/-- no machine of a set that is being deleted is left alive -/
theorem wiped_lives {srt : List Machine → List Machine} {now : Int} {ms : MachineSet.MSet} (hx : ms.deleting = true) (s : Fleet) {new : List M}
    (hl : new.length = (plan srt ms s.ms).issued) : lives (s.after (setRun srt now ms s.ms) new).ms = 0 := by
  rw [unissued hx] at hl
  have hnew : new = [] := List.length_eq_zero_iff.1 hl
  rw [lives_set _ _ _ _ _ (by rw [hnew]; simp), hl, Nat.add_zero, List.length_eq_zero_iff, List.filter_eq_nil_iff]
  intro m hm
  simp [wiped hx hm]

/-- stale machines are deleted -/
theorem stale_target {srt : List Machine → List Machine} {ms : MachineSet.MSet} {w : List M} {m : M} (hm : m ∈ w)
    (h : MachineSet.isStale (view m) = true) : m.name ∈ targets (plan srt ms w) := by
  cases hx : ms.deleting with
  | true => exact wiped hx hm
  | false =>
  unfold targets plan
  rw [hx, if_neg (by simp), MachineSet.staleTerminated_eq, List.map_append, List.mem_append]
  refine .inl (List.mem_map.2 ⟨view m, List.mem_filter.2 ⟨List.mem_map.2 ⟨m, hm, rfl⟩, h⟩, view_name m⟩)

theorem live_of {m : M} (h : Ok m) (hd : m.isDying = false) (hs : MachineSet.isStale (view m) = false) : MachineSet.isLive (view m) = true := by
  cases m with
  | dying _ _ _ _ _ => cases hd
  | live vms v x =>
    unfold MachineSet.isLive
    rw [hs, Bool.not_false, Bool.true_and]
    unfold MachineSet.isStale at hs
    rw [Bool.or_eq_false_iff] at hs
    have h1 := hs.1
    have h2 := h.2.2.2.1
    unfold isMachineFailed view at h1
    unfold isMachineActive view
    dsimp only at h1 ⊢
    cases hp : v.st.phase <;> simp_all

theorem planned (srt : List Machine → List Machine) (hs : ∀ l, (srt l).Perm l) (ms : MachineSet.MSet) (hf : ms.freezeLabel ≠ "True") (hx : ms.deleting = false) (w : List M) :
    (plan srt ms w).issued = min 100 (goal ms - (w.filter fun m => MachineSet.isLive (view m)).length) ∧
    (plan srt ms w).victims.length = min 100 ((w.filter fun m => MachineSet.isLive (view m)).length - goal ms) := by
  rw [← counted, plan_of hx, goal_of hx]
  exact MachineSet.C05_only_live_count srt allCreated hs (w.map view) ms hf fun _ => rfl

/-- a run of the machine set controller does not go past the desired number, except for machines that were there -/
theorem set_bound {srt : List Machine → List Machine} (hs : ∀ l, (srt l).Perm l) {now : Int} {ms : MachineSet.MSet} (hf : ms.freezeLabel ≠ "True")
    {s : Fleet} (h0 : Start s) {new : List M} (hn : ∀ m ∈ new, Fresh m) (hl : new.length = (plan srt ms s.ms).issued) :
    lives (s.after (setRun srt now ms s.ms) new).ms ≤ max (lives s.ms) (goal ms) := by
  cases hx : ms.deleting with
  | true => rw [wiped_lives hx s hl]; omega
  | false =>
  rw [lives_set _ _ _ _ _ hn, hl, (planned srt hs ms hf hx s.ms).1]
  have h1 : (s.ms.filter fun m => !m.isDying && !decide (m.name ∈ targets (plan srt ms s.ms))).length ≤
      (s.ms.filter fun m => MachineSet.isLive (view m)).length := by
    refine filter_le fun m hm h => ?_
    simp only [Bool.and_eq_true, Bool.not_eq_true', decide_eq_false_iff_not] at h
    refine live_of (h0.ok m hm) h.1 ?_
    cases hst : MachineSet.isStale (view m) with
    | false => rfl
    | true => exact absurd (stale_target hm hst) h.2
  have h2 : (s.ms.filter fun m => !m.isDying && !decide (m.name ∈ targets (plan srt ms s.ms))).length ≤ lives s.ms := by
    refine filter_le fun m hm h => ?_
    simp only [Bool.and_eq_true] at h
    exact h.1
  omega

theorem dying_not_live {m : M} (h : (view m).phase = .terminating) : MachineSet.isLive (view m) = false := by
  unfold MachineSet.isLive isMachineActive
  rw [h]; simp

theorem counted_lives {s : Fleet} (h0 : Start s) (h1 : NoStale s.ms) (h2 : Marked s.ms) :
    (s.ms.filter fun m => MachineSet.isLive (view m)) = s.ms.filter fun m => !m.isDying := by
  refine filter_eq fun m hm => ?_
  cases hd : m.isDying with
  | true => exact dying_not_live (h2 m hm hd)
  | false => exact live_of (h0.ok m hm) hd (h1 m hm hd)

/-- in a settled population a run of the machine set controller changes the number of living machines as it should -/
theorem set_settled {srt : List Machine → List Machine} (hs : ∀ l, (srt l).Perm l) {now : Int} {ms : MachineSet.MSet} (hf : ms.freezeLabel ≠ "True") (hx : ms.deleting = false)
    {s : Fleet} (h0 : Start s) (h1 : NoStale s.ms) (h2 : Marked s.ms) {new : List M} (hn : ∀ m ∈ new, Fresh m)
    (hl : new.length = (plan srt ms s.ms).issued) :
    lives (s.after (setRun srt now ms s.ms) new).ms =
      lives s.ms + min 100 (goal ms - lives s.ms) - min 100 (lives s.ms - goal ms) := by
  have hp := planned srt hs ms hf hx s.ms
  rw [counted_lives h0 h1 h2] at hp
  rw [lives_set _ _ _ _ _ hn, hl, hp.1]
  obtain ⟨K, hK⟩ := MachineSet.victims_perm srt allCreated (s.ms.map view) ms hs
  rw [← plan_of hx] at hK
  have hA : (s.ms.map view).filter MachineSet.isLive = (s.ms.filter fun m => !m.isDying).map view := by
    rw [List.filter_map, ← counted_lives h0 h1 h2]; rfl
  rw [hA] at hK
  have hnd : (((s.ms.filter fun m => !m.isDying).map view).map Machine.name).Nodup := by
    rw [List.map_map, show (Machine.name ∘ view) = M.name from funext view_name]
    exact List.Nodup.sublist (List.filter_sublist.map _) h0.names
  have hkv := MachineSet.kept_not_victim hK hnd
  have hlen := hK.length_eq
  rw [List.length_append, List.length_map] at hlen
  have hfil : (s.ms.filter fun m => !m.isDying && !decide (m.name ∈ targets (plan srt ms s.ms))).length = K.length := by
    have e1 : (s.ms.filter fun m => !m.isDying && !decide (m.name ∈ targets (plan srt ms s.ms))) =
        (s.ms.filter fun m => !m.isDying).filter fun m => !decide ((view m).name ∈ (plan srt ms s.ms).victims.map Machine.name) := by
      rw [List.filter_filter]
      refine filter_eq fun m hm => ?_
      cases hd : m.isDying with
      | true => simp
      | false =>
        simp only [Bool.not_false, Bool.true_and, Bool.and_true]
        congr 1
        rw [view_name]
        have : m.name ∈ targets (plan srt ms s.ms) ↔ m.name ∈ (plan srt ms s.ms).victims.map Machine.name := by
          unfold targets
          rw [List.map_append, List.mem_append]
          constructor
          · rintro (h | h)
            · exfalso
              obtain ⟨y, hy, hyn⟩ := List.mem_map.1 h
              rw [plan_of hx] at hy
              rw [MachineSet.staleTerminated_eq] at hy
              obtain ⟨hy1, hy2⟩ := List.mem_filter.1 hy
              obtain ⟨m2, hm2, rfl⟩ := List.mem_map.1 hy1
              rw [view_name] at hyn
              rw [unique h0.names hm2 hm hyn, h1 m hm hd] at hy2
              cases hy2
            · exact h
          · exact .inr
        exact decide_eq_decide.2 this
    rw [e1]
    have e2 : ((s.ms.filter fun m => !m.isDying).filter fun m => !decide ((view m).name ∈ (plan srt ms s.ms).victims.map Machine.name)).length =
        (((s.ms.filter fun m => !m.isDying).map view).filter fun m => !decide (m.name ∈ (plan srt ms s.ms).victims.map Machine.name)).length := by
      rw [List.filter_map, List.length_map]; rfl
    rw [e2, ← (hK.filter _).length_eq, List.filter_append, List.length_append,
      List.filter_eq_nil_iff.2, List.filter_eq_self.2]
    · simp
    · intro m hm
      rw [decide_eq_false (hkv m hm)]; rfl
    · intro m hm
      rw [decide_eq_true (List.mem_map.2 ⟨m, hm, rfl⟩)]; simp
  have hv := hp.2
  unfold lives
  rw [hfil]
  unfold lives at *
  omega

/-! ### Settling -/

theorem triggered (prio : Option String) (trig : Bool) (n : String) (p : Phase) (c : Int) (d : Bool) :
    isMachineTriggeredForDeletion { name := n, annotations := annotations prio trig, phase := p, creation := c, deleting := d } =
      (decide (prio = some "1") || trig) := by
  have hk : (triggerDeletionKey == machinePriorityKey) = false := by decide +kernel
  unfold isMachineTriggeredForDeletion annotations SMap.get
  dsimp only
  cases prio with
  | none => cases trig with
    | false => rfl
    | true => simp [List.lookup_cons]
  | some q => cases trig <;> by_cases hq : q = "1" <;> simp [List.lookup, hk, hq]

theorem stale_live (vms : List Creation.VM) (v : Lifecycle.Obj) (x : Extra) :
    MachineSet.isStale (view (.live vms v x)) = (v.st.phase == .failed || (decide (v.prio = some "1") || x.trig)) := by
  unfold MachineSet.isStale view
  dsimp only
  rw [triggered]; rfl

theorem fresh_not_stale {m : M} (h : Fresh m) : MachineSet.isStale (view m) = false := by
  obtain ⟨v, x, rfl, ⟨h1, _⟩, _, _, h8, h9⟩ := h
  rw [stale_live, h1, h9, decide_eq_false h8]; rfl

theorem set_noStale {srt : List Machine → List Machine} {now : Int} {ms : MachineSet.MSet} {s : Fleet} {new : List M} (hn : ∀ m ∈ new, Fresh m) :
    NoStale (s.after (setRun srt now ms s.ms) new).ms := by
  intro m' hm' hd
  rcases after_mem hm' with ⟨m, hm, h⟩ | h
  · unfold setRun at h
    split at h
    · rw [kill_dying h] at hd; cases hd
    · rename_i ht
      cases h
      cases hst : MachineSet.isStale (view m') with
      | false => rfl
      | true => exact absurd (stale_target hm hst) ht
  · exact fresh_not_stale (hn m' h)

theorem live_not_stale {e : Lifecycle.Env} {vm : Creation.VM} {vms : List Creation.VM} {v : Lifecycle.Obj} {x : Extra} (hg : Good e vm v)
    (h : Ok (.live vms v x)) (hs : MachineSet.isStale (view (.live vms v x)) = false) :
    MachineSet.isStale (view (.live (Lifecycle.live e vm (vms, v)).1 (Lifecycle.live e vm (vms, v)).2 x)) = false := by
  obtain ⟨h1, h2, h3, h4, h5, h6, k, _, h7⟩ := h
  obtain ⟨_, s1, s2, s3, s4, s5, s6, s7⟩ := Lifecycle.live_left hg h2 h3 h7
  rw [stale_live] at hs ⊢
  simp only [Bool.or_eq_false_iff, decide_eq_false_iff_not, beq_eq_false_iff_ne] at hs ⊢
  refine ⟨?_, ?_, hs.2.2⟩
  · rcases s6 with h | ⟨h, _⟩ | h <;> rw [h]
    · exact hs.1
    · simp
    · simp
  · rcases s7 with h | h <;> rw [h]
    · exact hs.2.1
    · decide

/-- the machine a step makes of a machine that was there -/
theorem machine_mem {s : Fleet} (hs : Start s) {e : Lifecycle.Env} {vm : Creation.VM} {vms : List Creation.VM} {v : Lifecycle.Obj} {x : Extra}
    (hm : .live vms v x ∈ s.ms) {m m' : M} (hmem : m ∈ s.ms) (h : machineRun v.name e vm m = some m') :
    (m = .live vms v x ∧ m' = .live (Lifecycle.live e vm (vms, v)).1 (Lifecycle.live e vm (vms, v)).2 x) ∨ (m.name ≠ v.name ∨ m.isDying = true) ∧ m' = m := by
  cases m with
  | dying _ _ _ _ _ => cases h; exact .inr ⟨.inr rfl, rfl⟩
  | live vms' v' x' =>
    unfold machineRun at h
    dsimp only at h
    split at h
    · rename_i heq
      cases unique hs.names hmem hm heq
      cases h
      exact .inl ⟨rfl, rfl⟩
    · rename_i hne
      cases h
      exact .inr ⟨.inl hne, rfl⟩

theorem term_mem {s : Fleet} (hs : Start s) {e : Termination.Env} {vms : List Creation.VM} {t : Termination.Obj} {p : Option String} {c : Int} {tr : Bool}
    (hm : .dying vms t p c tr ∈ s.ms) {m m' : M} (hmem : m ∈ s.ms) (h : termRun t.name e m = some m') :
    (m = .dying vms t p c tr ∧ m' = .dying (vmsAfter e t vms) (Termination.run e t) p c tr) ∨ (m.name ≠ t.name ∨ m.isDying = false) ∧ m' = m := by
  cases m with
  | live _ _ _ => cases h; exact .inr ⟨.inr rfl, rfl⟩
  | dying vms' t' p' c' tr' =>
    unfold termRun at h
    dsimp only at h
    split at h
    · rename_i heq
      cases unique hs.names hmem hm heq
      split at h
      · cases h; exact .inl ⟨rfl, rfl⟩
      · cases h
    · rename_i hne
      cases h
      exact .inr ⟨.inl hne, rfl⟩

theorem step_noStale {ms : MachineSet.MSet} {s s' : Fleet} {l : Lab} (hs : Start s) (h : Step ms s l s') (hn : NoStale s.ms) : NoStale s'.ms := by
  cases h with
  | set srt now new h1 h2 h3 h4 => exact set_noStale h3
  | machine e vm vms v x h1 h2 h3 =>
    intro m' hm' hd
    rcases after_mem hm' with ⟨m, hm, h⟩ | h
    · rcases machine_mem hs h1 hm h with ⟨rfl, rfl⟩ | ⟨_, rfl⟩
      · exact live_not_stale h2 (hs.ok _ hm) (hn _ hm rfl)
      · exact hn _ hm hd
    · cases h
  | late e vms t p c tr h1 h2 h3 =>
    intro m' hm' hd
    rcases after_mem hm' with ⟨m, hm, h⟩ | h
    · rcases term_mem hs h1 hm h with ⟨rfl, rfl⟩ | ⟨_, rfl⟩
      · cases hd
      · exact hn _ hm hd
    · cases h
  | early e vms t p c tr h1 h2 =>
    intro m' hm' hd
    rcases after_mem hm' with ⟨m, hm, h⟩ | h
    · rcases term_mem hs h1 hm h with ⟨rfl, rfl⟩ | ⟨_, rfl⟩
      · cases hd
      · exact hn _ hm hd
    · cases h

/-- a machine whose phase does not say that it is being deleted was so before and was not served -/
theorem step_unmarked {ms : MachineSet.MSet} {s s' : Fleet} {l : Lab} (hs : Start s) (h : Step ms s l s') {m' : M} (hm' : m' ∈ s'.ms)
    (hd : m'.isDying = true) (hp : (view m').phase ≠ .terminating) : m' ∈ s.ms ∧ l ≠ .served m'.name := by
  cases h with
  | set srt now new h1 h2 h3 h4 =>
    rcases after_mem hm' with ⟨m, hm, h⟩ | h
    · have : m' = m := by
        unfold setRun at h
        split at h
        · cases m with
          | dying _ _ _ _ _ => cases h; rfl
          | live vms v x =>
            unfold kill at h
            dsimp only at h
            split at h
            · cases h; exact absurd rfl hp
            · cases h
        · cases h; rfl
      rw [this]
      exact ⟨hm, by simp⟩
    · rw [fresh_live (h3 m' h)] at hd; cases hd
  | machine e vm vms v x h1 h2 h3 =>
    rcases after_mem hm' with ⟨m, hm, h⟩ | h
    · rcases machine_mem hs h1 hm h with ⟨rfl, rfl⟩ | ⟨_, rfl⟩
      · cases hd
      · refine ⟨hm, ?_⟩
        intro heq
        injection heq with heq
        cases unique hs.names h1 hm heq
        cases hd
    · cases h
  | late e vms t p c tr h1 h2 h3 =>
    rcases after_mem hm' with ⟨m, hm, h⟩ | h
    · rcases term_mem hs h1 hm h with ⟨rfl, rfl⟩ | ⟨h4, rfl⟩
      · exact absurd (term_phase (hs.ok _ hm).1 h2) hp
      · refine ⟨hm, ?_⟩
        intro heq
        injection heq with heq
        rcases h4 with h4 | h4
        · exact h4 heq.symm
        · rw [h4] at hd; cases hd
    · cases h
  | early e vms t p c tr h1 h2 =>
    rcases after_mem hm' with ⟨m, hm, h⟩ | h
    · rcases term_mem hs h1 hm h with ⟨rfl, rfl⟩ | ⟨_, rfl⟩
      · exact absurd (term_phase (hs.ok _ hm).1 h2) hp
      · exact ⟨hm, by simp⟩
    · cases h

theorem steps_unmarked {ms : MachineSet.MSet} {s s' : Fleet} {ls : List Lab} (hs : Start s) (h : Steps ms s ls s') {m' : M} (hm' : m' ∈ s'.ms)
    (hd : m'.isDying = true) (hp : (view m').phase ≠ .terminating) : m' ∈ s.ms ∧ .served m'.name ∉ ls := by
  induction h with
  | nil _ => exact ⟨hm', by simp⟩
  | cons h1 h2 ih =>
    obtain ⟨i1, i2⟩ := ih (step_start hs h1) hm'
    obtain ⟨j1, j2⟩ := step_unmarked hs h1 i1 hd hp
    refine ⟨j1, ?_⟩
    intro h
    rcases List.mem_cons.1 h with h | h
    · exact j2 h.symm
    · exact i2 h

theorem steps_noStale {ms : MachineSet.MSet} {s s' : Fleet} {ls : List Lab} (hs : Start s) (h : Steps ms s ls s')
    (hn : NoStale s.ms ∨ .set ∈ ls) : NoStale s'.ms := by
  induction h with
  | nil _ => rcases hn with h | h; exact h; cases h
  | cons h1 h2 ih =>
    refine ih (step_start hs h1) ?_
    rcases hn with hn | hn
    · exact .inl (step_noStale hs h1 hn)
    · rcases List.mem_cons.1 hn with hn | hn
      · subst hn
        cases h1 with
        | set srt now new h1 h2 h3 h4 => exact .inl (set_noStale h3)
      · exact .inr hn

/-- after the first epoch no living machine is failed or marked, and every machine being deleted is called terminating -/
theorem epoch_settles {ms : MachineSet.MSet} {s s' : Fleet} (hs : Start s) (h : Epoch ms s s') : Start s' ∧ NoStale s'.ms ∧ Marked s'.ms := by
  obtain ⟨ls, h1, h2, h3⟩ := h
  refine ⟨steps_start hs h1, steps_noStale hs h1 (.inr h2), fun m hm hd => ?_⟩
  by_cases hp : (view m).phase = .terminating
  · exact hp
  · obtain ⟨k1, k2⟩ := steps_unmarked hs h1 hm hd hp
    exact absurd (h3 m k1 m hm rfl rfl) k2

/-! ### The right number -/

theorem lives_keep {f : M → Option M} : ∀ {w : List M}, (∀ m ∈ w, m.isDying = false → ∃ m', f m = some m' ∧ m'.isDying = false) →
    (∀ m ∈ w, m.isDying = true → ∀ m', f m = some m' → m'.isDying = true) → lives (w.filterMap f) = lives w
  | [], _, _ => rfl
  | a :: w, h1, h2 => by
    have ih := lives_keep (f := f) (w := w) (fun m hm => h1 m (List.mem_cons_of_mem _ hm)) (fun m hm => h2 m (List.mem_cons_of_mem _ hm))
    rw [List.filterMap_cons]
    unfold lives at ih ⊢
    cases hd : a.isDying with
    | true =>
      rw [List.filter_cons_of_neg (a := a) (by simp [hd])]
      cases hf : f a with
      | none => exact ih
      | some b =>
        dsimp only
        rw [List.filter_cons_of_neg (by simp [h2 a (by simp) hd b hf])]
        exact ih
    | false =>
      obtain ⟨b, hb, hbd⟩ := h1 a (by simp) hd
      rw [hb, List.filter_cons_of_pos (a := a) (by simp [hd])]
      dsimp only
      rw [List.filter_cons_of_pos (by simp [hbd]), List.length_cons, List.length_cons, ih]

theorem after_nil (s : Fleet) (f : M → Option M) : (s.after f []).ms = s.ms.filterMap f := by unfold Fleet.after; simp

theorem machine_lives (s : Fleet) (n : String) (e : Lifecycle.Env) (vm : Creation.VM) : lives (s.after (machineRun n e vm) []).ms = lives s.ms := by
  rw [after_nil]
  refine lives_keep (fun m _ hd => ?_) (fun m _ hd m' h => ?_)
  · cases m with
    | dying _ _ _ _ _ => cases hd
    | live vms v x =>
      unfold machineRun
      dsimp only
      split <;> exact ⟨_, rfl, rfl⟩
  · cases m with
    | dying _ _ _ _ _ => cases h; rfl
    | live vms v x => cases hd

theorem term_lives (s : Fleet) (n : String) (e : Termination.Env) : lives (s.after (termRun n e) []).ms = lives s.ms := by
  rw [after_nil]
  refine lives_keep (fun m _ hd => ?_) (fun m _ hd m' h => ?_)
  · cases m with
    | dying _ _ _ _ _ => cases hd
    | live vms v x => exact ⟨_, rfl, rfl⟩
  · cases m with
    | live _ _ _ => cases hd
    | dying vms t p c tr =>
      unfold termRun at h
      dsimp only at h
      split at h
      · split at h
        · cases h; rfl
        · cases h
      · cases h; rfl

theorem step_bound {ms : MachineSet.MSet} (hf : ms.freezeLabel ≠ "True") {s s' : Fleet} {l : Lab} (hs : Start s) (h : Step ms s l s') :
    lives s'.ms ≤ max (lives s.ms) (goal ms) := by
  cases h with
  | set srt now new h1 h2 h3 h4 => exact set_bound h1 hf hs h3 h2
  | machine e vm vms v x h1 h2 h3 => rw [machine_lives]; omega
  | late e vms t p c tr h1 h2 h3 => rw [term_lives]; omega
  | early e vms t p c tr h1 h2 => rw [term_lives]; omega

theorem steps_bound {ms : MachineSet.MSet} (hf : ms.freezeLabel ≠ "True") {s s' : Fleet} {ls : List Lab} (hs : Start s) (h : Steps ms s ls s') :
    lives s'.ms ≤ max (lives s.ms) (goal ms) := by
  induction h with
  | nil _ => omega
  | cons h1 h2 ih =>
    have := ih (step_start hs h1)
    have := step_bound hf hs h1
    omega

/-- in order, nobody stale, everybody marked -/
structure Settled (s : Fleet) : Prop where
  start : Start s
  fresh : NoStale s.ms
  marked : Marked s.ms

theorem step_settled {ms : MachineSet.MSet} {s s' : Fleet} {l : Lab} (hs : Settled s) (h : Step ms s l s') : Settled s' := by
  refine ⟨step_start hs.start h, step_noStale hs.start h hs.fresh, fun m hm hd => ?_⟩
  by_cases hp : (view m).phase = .terminating
  · exact hp
  · obtain ⟨k1, k2⟩ := step_unmarked hs.start h hm hd hp
    exact hs.marked m k1 hd

/-- how far the number of living machines is from the desired one -/
def dist (ms : MachineSet.MSet) (s : Fleet) : Nat := (goal ms - lives s.ms) + (lives s.ms - goal ms)

theorem step_dist {ms : MachineSet.MSet} (hf : ms.freezeLabel ≠ "True") {s s' : Fleet} {l : Lab} (hs : Settled s) (h : Step ms s l s') :
    dist ms s' ≤ if l = .set then dist ms s - 100 else dist ms s := by
  cases h with
  | set srt now new h1 h2 h3 h4 =>
    rw [if_pos rfl]
    unfold dist
    cases hx : ms.deleting with
    | true =>
      have hg : goal ms = 0 := by unfold goal; rw [hx]; rfl
      rw [wiped_lives hx s h2, hg]; omega
    | false =>
    rw [set_settled h1 hf hx hs.start hs.fresh hs.marked h3 h2]
    omega
  | machine e vm vms v x h1 h2 h3 => unfold dist; rw [machine_lives, if_neg (by simp)]; omega
  | late e vms t p c tr h1 h2 h3 => unfold dist; rw [term_lives, if_neg (by simp)]; omega
  | early e vms t p c tr h1 h2 => unfold dist; rw [term_lives, if_neg (by simp)]; omega

theorem steps_settled {ms : MachineSet.MSet} (hf : ms.freezeLabel ≠ "True") {s s' : Fleet} {ls : List Lab} (hs : Settled s) (h : Steps ms s ls s') :
    Settled s' ∧ dist ms s' ≤ dist ms s ∧ (.set ∈ ls → dist ms s' ≤ dist ms s - 100) := by
  induction h with
  | nil _ => exact ⟨hs, Nat.le_refl _, by simp⟩
  | @cons s s1 s2 l ls h1 h2 ih =>
    obtain ⟨i1, i2, i3⟩ := ih (step_settled hs h1)
    have hd := step_dist hf hs h1
    refine ⟨i1, ?_, ?_⟩
    · split at hd <;> omega
    · intro h
      by_cases hl : l = .set
      · rw [if_pos hl] at hd; omega
      · rw [if_neg hl] at hd
        rcases List.mem_cons.1 h with h | h
        · exact absurd h.symm hl
        · have := i3 h; omega

theorem epochs_dist {ms : MachineSet.MSet} (hf : ms.freezeLabel ≠ "True") {n : Nat} {s s' : Fleet} (hs : Settled s) (h : Epochs ms n s s') :
    Settled s' ∧ dist ms s' ≤ dist ms s - 100 * n := by
  induction h with
  | zero _ => exact ⟨hs, by omega⟩
  | succ h1 _ ih =>
    obtain ⟨ls, h1, h2, _⟩ := h1
    obtain ⟨j1, _, j3⟩ := steps_settled hf hs h1
    obtain ⟨i1, i2⟩ := ih j1
    have := j3 h2
    exact ⟨i1, by omega⟩

/-! ### Serving every machine -/

/-- at most `b` runs are needed -/
def Within : M → Nat → Prop
  | .live vms v _, b => ∃ k ≤ b, Left vms v k
  | .dying _ t _ _ _, b => left t ≤ b

theorem within_mono {m : M} {a b : Nat} (h : Within m a) (hab : a ≤ b) : Within m b := by
  cases m with
  | live vms v x => obtain ⟨k, hk, hl⟩ := h; exact ⟨k, Nat.le_trans hk hab, hl⟩
  | dying vms t p c tr => exact Nat.le_trans h hab

theorem filterMap_self {f : M → Option M} : ∀ {l : List M}, (∀ m ∈ l, f m = some m) → l.filterMap f = l
  | [], _ => rfl
  | a :: l, h => by
    rw [List.filterMap_cons, h a (by simp)]
    exact congrArg (a :: ·) (filterMap_self fun m hm => h m (List.mem_cons_of_mem _ hm))

/-- with the right number of machines a run of the machine set controller does nothing -/
theorem set_idle {srt : List Machine → List Machine} (hs : ∀ l, (srt l).Perm l) {now : Int} {ms : MachineSet.MSet} (hf : ms.freezeLabel ≠ "True")
    {s : Fleet} (h0 : Settled s) (hd : dist ms s = 0) {new : List M} (hl : new.length = (plan srt ms s.ms).issued) :
    (s.after (setRun srt now ms s.ms) new).ms = s.ms := by
  cases hx : ms.deleting with
  | true =>
    have hg : goal ms = 0 := by unfold goal; rw [hx]; rfl
    unfold dist at hd
    rw [unissued hx] at hl
    have hnew : new = [] := List.length_eq_zero_iff.1 hl
    rw [hnew, after_nil]
    refine filterMap_self fun m hm => ?_
    cases m with
    | dying _ _ _ _ _ => unfold setRun; split <;> rfl
    | live vms v x =>
      have : lives s.ms = 0 := by omega
      unfold lives at this
      rw [List.length_eq_zero_iff, List.filter_eq_nil_iff] at this
      exact absurd rfl (this _ hm)
  | false =>
  have hp := planned srt hs ms hf hx s.ms
  rw [counted_lives h0.start h0.fresh h0.marked, show (s.ms.filter fun m => !m.isDying).length = lives s.ms from rfl] at hp
  unfold dist at hd
  have hnew : new = [] := List.length_eq_zero_iff.1 (by omega)
  have hvic : (plan srt ms s.ms).victims = [] := List.length_eq_zero_iff.1 (by omega)
  rw [hnew, after_nil]
  refine filterMap_self fun m hm => ?_
  unfold setRun
  split
  · rename_i ht
    unfold targets at ht
    rw [hvic, List.append_nil] at ht
    obtain ⟨y, hy, hyn⟩ := List.mem_map.1 ht
    rw [plan_of hx] at hy
    rw [MachineSet.staleTerminated_eq] at hy
    obtain ⟨hy1, hy2⟩ := List.mem_filter.1 hy
    obtain ⟨m2, hm2, rfl⟩ := List.mem_map.1 hy1
    rw [view_name] at hyn
    rw [unique h0.start.names hm2 hm hyn] at hy2
    cases m with
    | dying _ _ _ _ _ => rfl
    | live vms v x => rw [h0.fresh _ hm rfl] at hy2; cases hy2
  · rfl

theorem left_drop {e : Termination.Env} {t : Termination.Obj} (ht : Terminating t) (hc : Coop e) :
    left (Termination.run e t) ≤ left t ∧ (t.st.opTime + tolerance < e.now → left (Termination.run e t) + 1 ≤ left t) := by
  rcases (Termination.run_progress ht hc).less with h | ⟨h1, h2⟩
  · exact ⟨by omega, fun _ => by omega⟩
  · rw [h1]; exact ⟨Nat.le_refl _, fun h => by omega⟩

/-- where a machine comes from, and what was achieved since -/
def From (s : Fleet) (served : Prop) (m' : M) : Prop :=
  ∃ m ∈ s.ms, m.name = m'.name ∧ m.isDying = m'.isDying ∧ ∀ b, (Within m b → Within m' b) ∧ (served → Within m (b + 1) → Within m' b)

theorem step_from {ms : MachineSet.MSet} (hf : ms.freezeLabel ≠ "True") {s s' : Fleet} {l : Lab} (hs : Settled s) (hd : dist ms s = 0)
    (h : Step ms s l s') : ∀ m' ∈ s'.ms, From s (l = .served m'.name) m' := by
  intro m' hm'
  cases h with
  | set srt now new h1 h2 h3 h4 =>
    rw [set_idle h1 hf hs hd h2] at hm'
    exact ⟨m', hm', rfl, rfl, fun b => ⟨id, nofun⟩⟩
  | machine e vm vms v x h1 h2 h3 =>
    rcases after_mem hm' with ⟨m, hm, h⟩ | h
    · rcases machine_mem hs.start h1 hm h with ⟨rfl, rfl⟩ | ⟨hn, rfl⟩
      · have hok := hs.start.ok _ hm
        have hname := (live_ok h2 h3 hok).2
        obtain ⟨k1, k2, k3, k4, k5, k6, k, _, k7⟩ := hok
        refine ⟨_, hm, hname.symm, rfl, fun b => ⟨?_, ?_⟩⟩
        · rintro ⟨k, hk, hl⟩
          obtain ⟨⟨j, hj, hlj⟩, _⟩ := Lifecycle.live_left h2 k2 k3 hl
          exact ⟨j, by omega, hlj⟩
        · rintro _ ⟨k, hk, hl⟩
          obtain ⟨⟨j, hj, hlj⟩, _⟩ := Lifecycle.live_left h2 k2 k3 hl
          exact ⟨j, by omega, hlj⟩
      · refine ⟨_, hm, rfl, rfl, fun b => ⟨id, fun heq _ => ?_⟩⟩
        injection heq with heq
        cases unique hs.start.names h1 hm heq
        rcases hn with hn | hn
        · exact absurd rfl hn
        · cases hn
    · cases h
  | late e vms t p c tr h1 h2 h3 =>
    rcases after_mem hm' with ⟨m, hm, h⟩ | h
    · rcases term_mem hs.start h1 hm h with ⟨rfl, rfl⟩ | ⟨hn, rfl⟩
      · obtain ⟨k1, k2⟩ := left_drop (hs.start.ok _ hm).1 h2
        have k2 := k2 h3
        refine ⟨_, hm, (term_name e t).symm, rfl, fun b => ⟨fun h => ?_, fun _ h => ?_⟩⟩
        · exact Nat.le_trans k1 h
        · have h : left t ≤ b + 1 := h
          show left (Termination.run e t) ≤ b
          omega
      · refine ⟨_, hm, rfl, rfl, fun b => ⟨id, fun heq _ => ?_⟩⟩
        injection heq with heq
        cases unique hs.start.names h1 hm heq
        rcases hn with hn | hn
        · exact absurd rfl hn
        · cases hn
    · cases h
  | early e vms t p c tr h1 h2 =>
    rcases after_mem hm' with ⟨m, hm, h⟩ | h
    · rcases term_mem hs.start h1 hm h with ⟨rfl, rfl⟩ | ⟨hn, rfl⟩
      · exact ⟨_, hm, (term_name e t).symm, rfl, fun b => ⟨fun h => Nat.le_trans (left_drop (hs.start.ok _ hm).1 h2).1 h, nofun⟩⟩
      · exact ⟨_, hm, rfl, rfl, fun b => ⟨id, nofun⟩⟩
    · cases h

theorem steps_from {ms : MachineSet.MSet} (hf : ms.freezeLabel ≠ "True") {s s' : Fleet} {ls : List Lab} (hs : Settled s) (hd : dist ms s = 0)
    (h : Steps ms s ls s') : ∀ m' ∈ s'.ms, From s (.served m'.name ∈ ls) m' := by
  induction h with
  | nil _ => intro m' hm'; exact ⟨m', hm', rfl, rfl, fun b => ⟨id, nofun⟩⟩
  | @cons s s1 s2 l ls h1 h2 ih =>
    intro m' hm'
    have hdist := step_dist hf hs h1
    have hd1 : dist ms s1 = 0 := by split at hdist <;> omega
    obtain ⟨m1, hm1, a1, a2, a3⟩ := ih (step_settled hs h1) hd1 m' hm'
    obtain ⟨m, hm, b1, b2, b3⟩ := step_from hf hs hd h1 m1 hm1
    refine ⟨m, hm, b1.trans a1, b2.trans a2, fun b => ⟨fun h => (a3 b).1 ((b3 b).1 h), fun hserved h => ?_⟩⟩
    rcases List.mem_cons.1 hserved with h' | h'
    · exact (a3 b).1 ((b3 b).2 (by rw [← h', a1]) h)
    · exact (a3 b).2 h' ((b3 (b + 1)).1 h)

theorem epochs_within {ms : MachineSet.MSet} (hf : ms.freezeLabel ≠ "True") {n : Nat} {s s' : Fleet} (hs : Settled s) (hd : dist ms s = 0)
    (h : Epochs ms n s s') {b : Nat} (hw : ∀ m ∈ s.ms, Within m (b + n)) : ∀ m ∈ s'.ms, Within m b := by
  induction h with
  | zero _ => exact hw
  | @succ n s s1 s2 h1 _ ih =>
    obtain ⟨ls, h1, h2, h3⟩ := h1
    obtain ⟨j1, j2, _⟩ := steps_settled hf hs h1
    refine ih j1 (by omega) fun m' hm' => ?_
    obtain ⟨m, hm, a1, a2, a3⟩ := steps_from hf hs hd h1 m' hm'
    refine (a3 (b + n)).2 ?_ (hw m hm)
    rw [← a1]
    exact h3 m hm m' hm' a1 a2

theorem left_eight (t : Termination.Obj) : left t ≤ 8 := by
  unfold left
  split
  · omega
  · split
    · omega
    · unfold Termination.stepLeft
      repeat' split
      all_goals omega

theorem left_pos {t : Termination.Obj} (ht : Terminating t) : 0 < left t := by
  unfold left
  rw [if_neg (by simp [ht.fin])]
  split
  · omega
  · unfold Termination.stepLeft
    repeat' split
    all_goals omega

theorem within_eight (m : M) (h : Ok m) : Within m 8 := by
  cases m with
  | live vms v x =>
    obtain ⟨_, _, _, _, _, _, k, hk, hl⟩ := h
    exact ⟨k, by omega, hl⟩
  | dying vms t p c tr => exact left_eight t

theorem Epochs.split {ms : MachineSet.MSet} {a : Nat} : ∀ {b : Nat} {s s' : Fleet}, Epochs ms (b + a) s s' →
    ∃ s1, Epochs ms b s s1 ∧ Epochs ms a s1 s' := by
  intro b
  induction b with
  | zero => intro s s' h; rw [Nat.zero_add] at h; exact ⟨s, .zero s, h⟩
  | succ b ih =>
    intro s s' h
    rw [show b + 1 + a = (b + a) + 1 by omega] at h
    cases h with
    | succ h1 h2 =>
      obtain ⟨s1, k1, k2⟩ := ih h2
      exact ⟨s1, .succ h1 k1, k2⟩

/-- The desired state: every machine is alive and Running, has exactly one VM, and carries its node's name and provider id. -/
def Desired (m : M) : Prop :=
  ∃ vm v x, m = .live [vm] v x ∧ v.st.phase = .running ∧ v.node = some vm.node ∧ v.pid = vm.pid ∧ v.finalizer = true

/-- what is reached -/
structure Converged (ms : MachineSet.MSet) (s : Fleet) : Prop where
  settled : Settled s
  number : dist ms s = 0
  done : ∀ m ∈ s.ms, Within m 0

theorem Converged.desired {ms : MachineSet.MSet} {s : Fleet} (h : Converged ms s) :
    s.ms.length = goal ms ∧ (∀ m ∈ s.ms, Desired m) ∧ (s.ms.map M.name).Nodup ∧ s.orphans = [] := by
  have halive : ∀ m ∈ s.ms, m.isDying = false := by
    intro m hm
    cases m with
    | live _ _ _ => rfl
    | dying vms t p c tr =>
      have h3 : left t ≤ 0 := h.done _ hm
      have := left_pos (h.settled.start.ok _ hm).1
      omega
  refine ⟨?_, fun m hm => ?_, h.settled.start.names, h.settled.start.orphans⟩
  · have hl : lives s.ms = s.ms.length := by
      unfold lives
      rw [List.filter_eq_self.2]
      intro m hm
      rw [halive m hm]; rfl
    have hd := h.number
    unfold dist at hd
    omega
  · cases m with
    | dying _ _ _ _ _ => cases halive _ hm
    | live vms v x =>
      obtain ⟨j, hj, hl⟩ := h.done _ hm
      have hj : j = 0 := by omega
      subst hj
      cases hl with
      | running hr hp =>
        obtain ⟨y, rfl, a1, a2, a3, _⟩ := hr
        exact ⟨y, v, x, rfl, hp, a2, a3, a1⟩

theorem converges {ms : MachineSet.MSet} (hf : ms.freezeLabel ≠ "True") {s s' : Fleet} (hs : Start s) {k n : Nat}
    (h1 : goal ms ≤ 100 * k) (h2 : lives s.ms ≤ 100 * k) (hn : k + 9 ≤ n) (h : Epochs ms n s s') : Converged ms s' := by
  obtain ⟨r, rfl⟩ : ∃ r, n = 1 + (k + (8 + r)) := ⟨n - (k + 9), by omega⟩
  obtain ⟨s1, e1, h⟩ := h.split
  obtain ⟨s2, e2, h⟩ := h.split
  have hset : Settled s1 ∧ dist ms s1 ≤ 100 * k := by
    cases e1 with
    | succ e1 e0 =>
      cases e0
      obtain ⟨k1, k2, k3⟩ := epoch_settles hs e1
      refine ⟨⟨k1, k2, k3⟩, ?_⟩
      obtain ⟨ls, e1, _⟩ := e1
      have hb := steps_bound hf hs e1
      unfold dist
      omega
  obtain ⟨hs2, hd2⟩ := epochs_dist hf hset.1 e2
  have hd2 : dist ms s2 = 0 := by omega
  obtain ⟨hs', hd'⟩ := epochs_dist hf hs2 h
  exact ⟨hs', by omega, epochs_within hf hs2 hd2 h (b := 0) (fun m hm => within_mono (within_eight m (hs2.start.ok m hm)) (by omega))⟩

theorem Converged.steps {ms : MachineSet.MSet} (hf : ms.freezeLabel ≠ "True") {s s' : Fleet} (hc : Converged ms s) {ls : List Lab} (h : Steps ms s ls s') :
    Converged ms s' := by
  obtain ⟨k1, k2, _⟩ := steps_settled hf hc.settled h
  refine ⟨k1, by have := hc.number; omega, fun m' hm' => ?_⟩
  obtain ⟨m, hm, _, _, a3⟩ := steps_from hf hc.settled hc.number h m' hm'
  exact (a3 0).1 (hc.done m hm)

/-- C97: From any population of machines – new, pending, running, unknown, failed, crash looping, marked for deletion, being deleted in any phase, more or
fewer than desired – the controllers, undisturbed and in any order, make exactly the desired number of machines, all of them Running with
exactly one VM each, with no machine being deleted left over and no VM without a machine. It takes at most nine epochs, and one more for every
hundred machines that there are or shall be. -/
theorem C97_converges (ms : MachineSet.MSet) (hf : ms.freezeLabel ≠ "True") (s s' : Fleet) (hs : Start s) (k n : Nat)
    (h1 : goal ms ≤ 100 * k) (h2 : s.ms.length ≤ 100 * k) (hn : k + 9 ≤ n) (h : Epochs ms n s s') :
    s'.ms.length = goal ms ∧ (∀ m ∈ s'.ms, Desired m) ∧ (s'.ms.map M.name).Nodup ∧ s'.orphans = [] :=
  (converges hf hs h1 (Nat.le_trans (List.length_filter_le _ _) h2) hn h).desired

/-- C97: and then it stays so: whatever runs follow, the machines are the same ones, all Running with their VMs. -/
theorem C97_stays (ms : MachineSet.MSet) (hf : ms.freezeLabel ≠ "True") (s s1 s2 : Fleet) (hs : Start s) (k n : Nat)
    (h1 : goal ms ≤ 100 * k) (h2 : s.ms.length ≤ 100 * k) (hn : k + 9 ≤ n) (h : Epochs ms n s s1) (ls : List Lab) (h' : Steps ms s1 ls s2) :
    s2.ms.length = goal ms ∧ (∀ m ∈ s2.ms, Desired m) ∧ (∀ m ∈ s2.ms, m.name ∈ s1.ms.map M.name) ∧ s2.orphans = [] := by
  have hc := converges hf hs h1 (Nat.le_trans (List.length_filter_le _ _) h2) hn h
  have hfrom := steps_from hf hc.settled hc.number h'
  have hc2 := hc.steps hf h'
  refine ⟨hc2.desired.1, hc2.desired.2.1, fun m' hm' => ?_, hc2.desired.2.2.2⟩
  obtain ⟨m, hm, a1, _, _⟩ := hfrom m' hm'
  rw [← a1]
  exact List.mem_map.2 ⟨m, hm, rfl⟩

/-! ### Such epochs can always be made -/

/-- C97: the drain of a machine that the machine set controller deletes sees its node as unhealthy exactly if the machine's conditions say so, since they say so. -/
theorem C97_drain_sees (now : Int) (vms : List Creation.VM) (v : Lifecycle.Obj) (x : Extra) (hc : (v.conds.map (·.type)).Nodup) (hf : v.finalizer = true) :
    ∃ t, kill now (.live vms v x) = some (.dying vms t v.prio v.created x.trig) ∧
      (∀ since, t.ready = some { healthy := false, since := since } ↔ ∃ c ∈ v.conds, c.type = "Ready" ∧ c.status ≠ "True" ∧ c.transition = since) ∧
      (∀ since, t.readonly = some { healthy := false, since := since } ↔ ∃ c ∈ v.conds, c.type = "ReadonlyFilesystem" ∧ c.status ≠ "False" ∧ c.transition = since) := by
  have uniq : ∀ a ∈ v.conds, ∀ b ∈ v.conds, a.type = b.type → a = b := by
    intro a ha b hb hab
    revert ha hb hc
    generalize v.conds = l
    intro hc ha hb
    induction l with
    | nil => cases ha
    | cons y l ih =>
      rw [List.map_cons, List.nodup_cons] at hc
      rcases List.mem_cons.1 ha with ha' | ha' <;> rcases List.mem_cons.1 hb with hb' | hb'
      · rw [ha', hb']
      · exact absurd (show y.type ∈ l.map (·.type) from List.mem_map.2 ⟨b, hb', by rw [← hab, ha']⟩) hc.1
      · exact absurd (show y.type ∈ l.map (·.type) from List.mem_map.2 ⟨a, ha', by rw [hab, hb']⟩) hc.1
      · exact ih hc.2 ha' hb'
  have key : ∀ (ty ok : String) (since : Int), ncond v.conds ty ok = some { healthy := false, since := since } ↔
      ∃ c ∈ v.conds, c.type = ty ∧ c.status ≠ ok ∧ c.transition = since := by
    intro ty ok since
    unfold ncond
    rw [Option.map_eq_some_iff]
    constructor
    · rintro ⟨c, h1, h2⟩
      have h3 : c.type = ty := by simpa using List.find?_some h1
      injection h2 with h4 h5
      exact ⟨c, List.mem_of_find?_eq_some h1, h3, by simpa using h4, h5⟩
    · rintro ⟨c, h1, h2, h3, h4⟩
      cases hfd : v.conds.find? fun c => c.type == ty with
      | none => exact absurd (show (c.type == ty) = true by simp [h2]) (List.find?_eq_none.1 hfd c h1)
      | some a =>
        have h5 : a.type = ty := by simpa using List.find?_some hfd
        rw [uniq a (List.mem_of_find?_eq_some hfd) c h1 (h5.trans h2.symm)]
        exact ⟨c, rfl, by rw [h4]; simp [h3]⟩
  refine ⟨announced now v x, ?_, fun since => key _ _ since, fun since => key _ _ since⟩
  unfold kill
  dsimp only
  rw [if_pos hf]

/-- such a machine -/
example : (([{ type := "Ready", status := "Unknown", transition := 7 }] : List Conditions.Cond).map (·.type)).Nodup := by decide


/-- a run in which nothing goes wrong -/
def goodEnv : Lifecycle.Env := { c := {}, node := .found { conds := [{ type := "OK", status := "False" }] } }

theorem goodEnv_good (v : Lifecycle.Obj) : Good goodEnv ⟨"node", "prov:///vm"⟩ v := by
  refine ⟨⟨rfl, rfl, rfl, rfl, rfl, rfl, rfl, rfl, rfl, rfl, rfl, .inl (by simp [goodEnv]), by decide⟩, rfl, rfl, by decide, _, rfl, ?_, by decide, rfl⟩
  refine ⟨by simp, ?_, ?_⟩
  · intro c hc h; rw [List.mem_singleton.1 hc] at h; exact absurd h (by decide)
  · intro c hc _; rw [List.mem_singleton.1 hc]

def coopEnv (t : Termination.Obj) : Termination.Env := { now := t.st.opTime + tolerance + 1, nodeByLabel := some "node" }

theorem coopEnv_coop (t : Termination.Obj) : Coop (coopEnv t) :=
  ⟨rfl, (by intro n hn; cases hn; unfold NameLike; decide), (by intro t h; cases h), rfl, rfl, (by intro h; cases h),
    (by intro t h; cases h), rfl, .inl rfl, (by intro t h; cases h)⟩

/-- a name of `k` letters -/
def aName (k : Nat) : String := String.ofList (List.replicate k 'a')

theorem aName_length (k : Nat) : (aName k).toList.length = k := by unfold aName; rw [String.toList_ofList]; simp

theorem aName_like (k : Nat) : NameLike (aName k) := by
  unfold NameLike aName
  rw [String.toList_ofList]
  intro h
  exact absurd (List.eq_of_mem_replicate h) (by decide)

def aMachine (k : Nat) : M := .live [] { name := aName k } {}

theorem aMachine_fresh (k : Nat) : Fresh (aMachine k) := ⟨_, _, rfl, ⟨rfl, rfl, rfl, rfl, rfl⟩, rfl, aName_like k, by simp, rfl⟩

theorem fresh_names (l : List M) (h : (l.map M.name).Nodup) (n : Nat) :
    ∃ new : List M, new.length = n ∧ (∀ m ∈ new, Fresh m) ∧ ((l ++ new).map M.name).Nodup := by
  obtain ⟨N, hN⟩ : ∃ N, ∀ m ∈ l, m.name.toList.length ≤ N := by
    clear h
    induction l with
    | nil => exact ⟨0, by simp⟩
    | cons a l ih =>
      obtain ⟨N, hN⟩ := ih
      refine ⟨max N a.name.toList.length, fun m hm => ?_⟩
      rcases List.mem_cons.1 hm with rfl | hm
      · omega
      · have := hN m hm; omega
  refine ⟨(List.range n).map fun i => aMachine (N + 1 + i), by simp, ?_, ?_⟩
  · intro m hm
    obtain ⟨i, _, rfl⟩ := List.mem_map.1 hm
    exact aMachine_fresh _
  · rw [List.map_append, List.nodup_append]
    refine ⟨h, ?_, ?_⟩
    · rw [List.map_map]
      refine List.Pairwise.map _ ?_ List.nodup_range
      intro i j hne hij
      apply hne
      have : (aName (N + 1 + i)).toList.length = (aName (N + 1 + j)).toList.length := by
        rw [show aName (N + 1 + i) = aName (N + 1 + j) from hij]
      rw [aName_length, aName_length] at this
      omega
    · intro a ha b hb hab
      obtain ⟨m, hm, rfl⟩ := List.mem_map.1 ha
      obtain ⟨m2, hm2, rfl⟩ := List.mem_map.1 hb
      obtain ⟨i, _, rfl⟩ := List.mem_map.1 hm2
      have h1 := hN m hm
      have h2 := aName_length (N + 1 + i)
      rw [show aName (N + 1 + i) = m.name from hab.symm] at h2
      omega

/-- any machine can be served -/
theorem serve {ms : MachineSet.MSet} {s : Fleet} (hs : Start s) {m : M} (hm : m ∈ s.ms) :
    ∃ s', Step ms s (.served m.name) s' ∧ ∀ m' ∈ s'.ms, m'.name ∈ s.ms.map M.name := by
  cases m with
  | live vms v x =>
    refine ⟨_, .machine goodEnv ⟨"node", "prov:///vm"⟩ vms v x hm (goodEnv_good v) (by unfold NameLike; decide), fun m' hm' => ?_⟩
    rcases after_mem hm' with ⟨m, hmm, h⟩ | h
    · obtain ⟨m2, h1, h2, _⟩ := machineRun_ok hs hm (goodEnv_good v) (by unfold NameLike; decide) m hmm
      rw [h1] at h; cases h
      rw [h2]; exact List.mem_map.2 ⟨m, hmm, rfl⟩
    · cases h
  | dying vms t p c tr =>
    refine ⟨_, .late (coopEnv t) vms t p c tr hm (coopEnv_coop t) (by show _ < t.st.opTime + tolerance + 1; omega), fun m' hm' => ?_⟩
    rcases after_mem hm' with ⟨m, hmm, h⟩ | h
    · rw [(termRun_ok (coopEnv_coop t) (hs.ok m hmm) h).1]; exact List.mem_map.2 ⟨m, hmm, rfl⟩
    · cases h

theorem serve_all (ms : MachineSet.MSet) (ns : List String) : ∀ s : Fleet, Start s → ∃ ls s', Steps ms s ls s' ∧
    (∀ m' ∈ s'.ms, m'.name ∈ s.ms.map M.name) ∧ ∀ m' ∈ s'.ms, m'.name ∈ ns → .served m'.name ∈ ls := by
  induction ns with
  | nil => intro s _; exact ⟨[], s, .nil s, fun m' hm' => List.mem_map.2 ⟨m', hm', rfl⟩, fun _ _ h => absurd h List.not_mem_nil⟩
  | cons n ns ih =>
    intro s hs
    by_cases hn : n ∈ s.ms.map M.name
    · obtain ⟨m, hm, rfl⟩ := List.mem_map.1 hn
      obtain ⟨s1, h1, h2⟩ := serve (ms := ms) hs hm
      obtain ⟨ls, s2, h3, h4, h5⟩ := ih s1 (step_start hs h1)
      refine ⟨_, s2, .cons h1 h3, fun m' hm' => ?_, fun m' hm' hmem => ?_⟩
      · obtain ⟨m1, hm1, he⟩ := List.mem_map.1 (h4 m' hm')
        rw [← he]; exact h2 m1 hm1
      · rcases List.mem_cons.1 hmem with h | h
        · rw [h]; simp
        · exact List.mem_cons_of_mem _ (h5 m' hm' h)
    · obtain ⟨ls, s2, h3, h4, h5⟩ := ih s hs
      refine ⟨ls, s2, h3, h4, fun m' hm' hmem => ?_⟩
      rcases List.mem_cons.1 hmem with h | h
      · exact absurd (by rw [← h]; exact h4 m' hm') hn
      · exact h5 m' hm' h

/-- C97: the epochs that `C97_converges` speaks of can be made from every population. -/
theorem C97_possible (ms : MachineSet.MSet) (s : Fleet) (hs : Start s) (n : Nat) : ∃ s', Epochs ms n s s' := by
  induction n generalizing s with
  | zero => exact ⟨s, .zero s⟩
  | succ n ih =>
    obtain ⟨new, h1, h2, h3⟩ := fresh_names s.ms hs.names (plan id ms s.ms).issued
    have hstep : Step ms s .set _ := .set id 0 new (fun l => List.Perm.refl l) h1 h2 h3
    have hs1 := step_start hs hstep
    obtain ⟨ls, s2, h4, h5, h6⟩ := serve_all ms ((s.after (setRun id 0 ms s.ms) new).ms.map M.name) _ hs1
    obtain ⟨s', h7⟩ := ih s2 (steps_start hs1 h4)
    refine ⟨s', .succ ⟨_, .cons hstep h4, by simp, fun m _ m' hm' he _ => ?_⟩ h7⟩
    rw [he]
    exact List.mem_cons_of_mem _ (h6 m' hm' (h5 m' hm'))

/-- a running machine that is marked for deletion -/
def demoC : Lifecycle.Obj := { name := "c", finalizer := true, node := some "node-c", pid := "prov:///c", prio := some "1", st := { phase := .running } }

/-- a machine that is being deleted while it is called Running -/
def demoD : Termination.Obj := { name := "d", deleting := some 0, node := "node-d", st := { phase := .running } }

/-- a population with a failed machine, a new one, a running one marked for deletion, and one being deleted -/
def demo : Fleet :=
  { ms := [.live [] { name := "a", finalizer := true, st := { phase := .failed } } {}, .live [] { name := "b" } {},
      .live [⟨"node-c", "prov:///c"⟩] demoC {}, .dying [⟨"node-d", "prov:///d"⟩] demoD (some "3") 0 false] }

theorem demo_start : Start demo := by
  refine ⟨fun m hm => ?_, by decide, rfl⟩
  simp only [demo, List.mem_cons, List.not_mem_nil, or_false] at hm
  rcases hm with rfl | rfl | rfl | rfl
  · exact ⟨by unfold NameLike; decide, rfl, by simp, by simp, by simp, by simp, 3, by omega, .unrecorded rfl ⟨rfl, rfl, by simp, by simp⟩⟩
  · exact ⟨by unfold NameLike; decide, rfl, by simp, by simp, by simp, by simp, 4, by omega, .bare rfl ⟨rfl, rfl, by simp, by simp⟩⟩
  · refine ⟨by unfold NameLike; decide, rfl, by simp [demoC], by simp [demoC], by simp [demoC], ?_, 0, by omega, .running ⟨_, rfl, rfl, rfl, rfl, by decide, by decide, by simp [demoC]⟩ rfl⟩
    intro y hy; rw [List.mem_singleton.1 hy]; unfold NameLike; decide
  · exact ⟨⟨rfl, by simp [demoD], by unfold NameLike; decide, by unfold NameLike; decide⟩, by decide⟩

/-- the population above becomes two running machines -/
example : ∃ s', Epochs { replicas := 2 } 10 demo s' ∧ s'.ms.length = 2 ∧ ∀ m ∈ s'.ms, Desired m := by
  obtain ⟨s', h⟩ := C97_possible { replicas := 2 } demo demo_start 10
  obtain ⟨h1, h2, _⟩ := C97_converges { replicas := 2 } (by decide) demo s' demo_start 1 10 (by decide) (by decide) (by omega) h
  exact ⟨s', h, h1, h2⟩

/-- when the set is deleted, all its machines and their VMs disappear, whatever its size was -/
example : ∃ s', Epochs { replicas := 2, deleting := true } 10 demo s' ∧ s'.ms = [] ∧ s'.orphans = [] := by
  obtain ⟨s', h⟩ := C97_possible { replicas := 2, deleting := true } demo demo_start 10
  obtain ⟨h1, _, _, h2⟩ := C97_converges { replicas := 2, deleting := true } (by decide) demo s' demo_start 1 10 (by decide) (by decide) (by omega) h
  exact ⟨s', h, List.length_eq_zero_iff.1 h1, h2⟩

end MCM.Fleet
