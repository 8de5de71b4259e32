import Verif.Model.Teardown
import Verif.Props.Deletion
import Verif.Props.Recovery
/-!
C115: a deleted machine deployment goes last, after its machine sets, their machines and the VMs; and undisturbed they all do go.
-/
namespace MCM.Teardown
open MCM MCM.Claim MCM.Deletion

/-! ## Specification -/

/-- the controller's own finalizer is on the object -/
def Held (o : FObj) : Prop := "machine.sapcloud.io/machine-controller-manager" ∈ o.finalizers

/-- the set belongs to the deployment -/
def OfDep (sel : SMap → Bool) (d : FObj) (s : SetRec) : Prop := ControlledBy s.seen d.uid ∧ sel s.labels = true

/-- the machine belongs to the set -/
def OfSet (s : SetRec) (r : MachRec) : Prop := ControlledBy r.seen s.obj.uid ∧ s.sel r.labels = true

/-- no set, no machine and no VM of the deployment is left -/
def Nothing (w : Cluster) : Prop := w.sets = [] ∧ w.machines = [] ∧ w.orphans = []

/-- A machine object has the finalizer while it has VMs, and its status names no step of the termination; a machine being deleted has the finalizer, and if its status says that
the VM is deleted, then it is. -/
def Sound : Fleet.M → Prop
  | .live vms v _ => (v.finalizer = false → vms = []) ∧ (v.st.phase = .terminating → Termination.decode v.st.desc = none)
  | .dying vms t _ _ _ => t.finalizer = true ∧ (4 ≤ Termination.reached t → vms = [])

/-- A deployment with its sets, the machines of these sets, and their VMs. The deployment has the controller's finalizer if it has sets, and a set has it if it has machines. -/
structure Start (w : Cluster) : Prop where
  names : (w.sets.map SetRec.name).Nodup
  sets : ∀ s ∈ w.sets, ∃ d, w.dep = some d ∧ Held d ∧ OfDep w.sel d s
  machines : ∀ r ∈ w.machines, ∃ s ∈ w.sets, Held s.obj ∧ OfSet s r
  sound : ∀ r ∈ w.machines, Sound r.m
  orphans : w.orphans = []

/-- the cache of the deployment controller misses no set of the deployment; it may be outdated otherwise, and show more -/
def SeesSets (w : Cluster) (c : Call) : Prop := ∀ l, c.cache = some l → (∀ o ∈ l, OneController o) ∧
  ∀ s ∈ w.sets, ∃ o ∈ l, o.owners = s.owners ∧ o.labels = s.labels

/-- the cache of the machine set controller misses no machine -/
def SeesMachines (w : Cluster) (c : Call) : Prop := ∀ l, c.cache = some l → (∀ o ∈ l, OneController o) ∧
  ∀ r ∈ w.machines, ∃ o ∈ l, o.owners = r.owners ∧ o.labels = r.labels

/-- One step of the cluster. -/
inductive Step (w : Cluster) : Cluster → Prop
  /-- a run of the deployment controller -/
  | dep (c : Call) : SeesSets w c → Step w (w.depRun c)
  /-- a run of the machine set controller -/
  | set (n : String) (c : Call) : SeesMachines w c → Step w (w.setRun n c)
  /-- the deployment controller makes a set -/
  | makeSet (d : FObj) (s : SetRec) : w.dep = some d → Held d → OfDep w.sel d s → s.name ∉ w.sets.map SetRec.name →
      Step w { w with sets := w.sets ++ [s] }
  /-- the machine set controller makes a machine -/
  | makeMachine (s : SetRec) (r : MachRec) : s ∈ w.sets → Held s.obj → OfSet s r → (∃ v x, r.m = .live [] v x ∧ Lifecycle.New v) →
      Step w { w with machines := w.machines ++ [r] }
  /-- somebody asks for the deletion of the deployment -/
  | deleteDep : Step w { w with dep := w.dep.bind doomed }
  /-- somebody asks for the deletion of a set -/
  | deleteSet (n : String) : Step w (w.putSet n doomed)
  /-- somebody asks for the deletion of a machine -/
  | requestMachine (now : Int) (n : String) : Step w (w.onMachines fun m => if m.name = n then request now m else some m)
  /-- somebody, like the machine set controller, asks for the deletion of a machine and announces it -/
  | deleteMachine (now : Int) (fate : Fate) (o : Claim.Obj) (n : String) :
      Step w (w.onMachines fun m => if m.name = n then prepare now fate o m else some m)
  /-- other parties change finalizers, but not the controller's own -/
  | editDep (fs : List String) : Step w { w with dep := w.dep.bind (edited fs) }
  | editSet (n : String) (fs : List String) : Step w (w.putSet n (edited fs))
  /-- a run of the machine controller, with whatever failures -/
  | machine (n : String) (e : Lifecycle.Env) (vm : Creation.VM) : Step w (w.onMachines (Fleet.machineRun n e vm))
  /-- a run of the termination, with whatever failures -/
  | term (n : String) (e : Termination.Env) : Step w (w.onMachines (Fleet.termRun n e))

/-- executions -/
inductive Reach (w0 : Cluster) : Cluster → Prop
  | refl : Reach w0 w0
  | step {w w' : Cluster} : Reach w0 w → Step w w' → Reach w0 w'

/-! ## Machines -/

/-- whatever happens to a machine, it stays sound, and an object that goes has no VM -/
def Keeps (f : Fleet.M → Option Fleet.M) : Prop := ∀ m, Sound m → (∀ m', f m = some m' → Sound m') ∧ (f m = none → m.vms = [])

theorem keeps_self : Keeps some := fun _ hs => ⟨fun _ h => by cases h; exact hs, fun h => by cases h⟩

theorem machine_keeps (n : String) (e : Lifecycle.Env) (vm : Creation.VM) : Keeps (Fleet.machineRun n e vm) := by
  intro m hs
  cases m with
  | dying vms t p c tr => exact keeps_self _ hs
  | live vms v x =>
    unfold Fleet.machineRun
    dsimp only
    split
    · refine ⟨fun m' h => ?_, fun h => by cases h⟩
      cases h
      constructor
      · unfold Lifecycle.live
        dsimp only
        intro hf
        by_cases hv : v.finalizer = true
        · exfalso
          cases hr : Lifecycle.run (Lifecycle.truthful e vm vms) v with
          | none => rw [hr] at hf; rw [Option.getD_none, hv] at hf; cases hf
          | some o => rw [hr] at hf; rw [Option.getD_some, Lifecycle.run_finalizer hv hr] at hf; cases hf
        · rw [if_neg fun h => hv (Lifecycle.asks_finalizer h)]
          exact hs.1 (by simpa using hv)
      · unfold Lifecycle.live
        dsimp only
        cases hr : Lifecycle.run (Lifecycle.truthful e vm vms) v with
        | none => exact hs.2
        | some o => exact Lifecycle.run_desc hr hs.2
    · exact keeps_self _ hs

theorem term_keeps (n : String) (e : Termination.Env) : Keeps (Fleet.termRun n e) := by
  intro m hs
  cases m with
  | live vms v x => exact keeps_self _ hs
  | dying vms t p c tr =>
    unfold Fleet.termRun
    dsimp only
    split
    · split
      · rename_i hf
        refine ⟨fun m' h => ?_, fun h => by cases h⟩
        cases h
        refine ⟨hf, fun hr => ?_⟩
        unfold Fleet.vmsAfter
        split
        · rfl
        · rename_i hno
          rcases Fleet.term_reached hr with h1 | h1
          · exact hs.2 h1
          · exact absurd h1 hno
      · rename_i hf
        exact ⟨fun m' h => (by cases h), fun _ => hs.2 (Fleet.term_fin hs.1 (by simpa using hf))⟩
    · exact keeps_self _ hs

theorem announced_sound (now : Int) {m : Fleet.M} (h : Sound m) : Sound (announced now m) := by
  cases m with
  | live vms v x => exact ⟨h.1, fun _ => Fleet.announced_decode⟩
  | dying vms t p c tr =>
    refine ⟨h.1, fun hr => ?_⟩
    exfalso
    revert hr
    unfold Termination.reached announce
    dsimp only
    rw [if_pos rfl, Fleet.announced_decode]
    decide

theorem prepare_keeps (now : Int) (fate : Fate) (o : Claim.Obj) : Keeps (prepare now fate o) := by
  intro m hs
  unfold prepare
  split
  · exact keeps_self _ hs
  · cases fate with
    | lost => exact keeps_self _ hs
    | refused => exact ⟨fun m' h => by cases h; exact announced_sound now hs, fun h => by cases h⟩
    | done =>
      cases m with
      | dying vms t p c tr => exact ⟨fun m' h => by cases h; exact announced_sound now hs, fun h => by cases h⟩
      | live vms v x =>
        dsimp only
        unfold Fleet.kill
        dsimp only
        split
        · rename_i hf
          refine ⟨fun m' h => ?_, fun h => by cases h⟩
          cases h
          refine ⟨hf, fun hr => ?_⟩
          exfalso
          revert hr
          unfold Termination.reached Fleet.announced
          dsimp only
          rw [if_pos rfl, Fleet.announced_decode]
          decide
        · rename_i hf
          exact ⟨fun m' h => (by cases h), fun _ => hs.1 (by simpa using hf)⟩

theorem request_keeps (now : Int) : Keeps (request now) := by
  intro m hs
  cases m with
  | dying vms t p c tr => exact keeps_self _ hs
  | live vms v x =>
    unfold request
    dsimp only
    split
    · rename_i hf
      refine ⟨fun m' h => ?_, fun h => by cases h⟩
      cases h
      refine ⟨hf, fun hr => ?_⟩
      exfalso
      revert hr
      rw [Termination.reached_none hs.2]
      decide
    · rename_i hf
      exact ⟨fun m' h => (by cases h), fun _ => hs.1 (by simpa using hf)⟩

theorem drop_keeps (c : Call) (deps : List Claim.Obj) : Keeps (dropMachine c deps) := by
  intro m hs
  unfold dropMachine
  split
  · exact keeps_self _ hs
  · exact prepare_keeps _ _ _ _ hs

theorem if_keeps {f : Fleet.M → Option Fleet.M} (n : String) (h : Keeps f) : Keeps fun m => if m.name = n then f m else some m := by
  intro m hs
  dsimp only
  split
  · exact h m hs
  · exact keeps_self _ hs

/-! ## The invariant -/

theorem mem_onMachines {w : Cluster} {f : Fleet.M → Option Fleet.M} {r : MachRec} (h : r ∈ (w.onMachines f).machines) :
    ∃ r0 ∈ w.machines, f r0.m = some r.m ∧ r = { r0 with m := r.m } := by
  obtain ⟨r0, h0, h1⟩ := List.mem_filterMap.1 h
  cases hf : f r0.m with
  | none => rw [hf] at h1; cases h1
  | some m => rw [hf] at h1; cases h1; exact ⟨r0, h0, hf, rfl⟩

theorem ofSet_m {s : SetRec} {r : MachRec} {m : Fleet.M} (h : OfSet s r) : OfSet s { r with m := m } := h

/-- changing machines -/
theorem onMachines_start {w : Cluster} (hs : Start w) {f : Fleet.M → Option Fleet.M} (hf : Keeps f) : Start (w.onMachines f) := by
  refine ⟨hs.names, hs.sets, fun r hr => ?_, fun r hr => ?_, ?_⟩
  · obtain ⟨r0, h0, _, h2⟩ := mem_onMachines hr
    obtain ⟨s, k1, k2, k3⟩ := hs.machines r0 h0
    exact ⟨s, k1, k2, by rw [h2]; exact k3⟩
  · obtain ⟨r0, h0, h1, _⟩ := mem_onMachines hr
    exact (hf _ (hs.sound r0 h0)).1 _ h1
  · unfold Cluster.onMachines
    dsimp only
    rw [hs.orphans, List.nil_append, List.flatMap_eq_nil_iff]
    intro r hr
    cases h : f r.m with
    | none => exact (hf _ (hs.sound r hr)).2 h
    | some _ => rfl

theorem mem_putSet {w : Cluster} {n : String} {g : FObj → Option FObj} {s : SetRec} (h : s ∈ (w.putSet n g).sets) :
    ∃ s0 ∈ w.sets, (s0 = s ∧ s0.name ≠ n) ∨ (s0.name = n ∧ g s0.obj = some s.obj ∧ s = { s0 with obj := s.obj }) := by
  obtain ⟨s0, h0, h1⟩ := List.mem_filterMap.1 h
  split at h1
  · rename_i hn
    cases hg : g s0.obj with
    | none => rw [hg] at h1; cases h1
    | some o => rw [hg] at h1; cases h1; exact ⟨s0, h0, .inr ⟨hn, hg, rfl⟩⟩
  · rename_i hn; cases h1; exact ⟨_, h0, .inl ⟨rfl, hn⟩⟩

theorem putSet_mem {w : Cluster} {n : String} {g : FObj → Option FObj} {s : SetRec} (h : s ∈ w.sets) (hn : s.name ≠ n) : s ∈ (w.putSet n g).sets :=
  List.mem_filterMap.2 ⟨s, h, by rw [if_neg hn]⟩

theorem putSet_mem' {w : Cluster} {n : String} {g : FObj → Option FObj} {s : SetRec} {o : FObj} (h : s ∈ w.sets) (hn : s.name = n) (hg : g s.obj = some o) :
    { s with obj := o } ∈ (w.putSet n g).sets :=
  List.mem_filterMap.2 ⟨s, h, by rw [if_pos hn, hg]; rfl⟩

/-- names only disappear -/
theorem filterMap_names {f : SetRec → Option SetRec} (hf : ∀ s s', f s = some s' → s'.name = s.name) :
    ∀ l : List SetRec, ((l.filterMap f).map SetRec.name).Sublist (l.map SetRec.name)
  | [] => .slnil
  | a :: l => by
    have ih := filterMap_names hf l
    rw [List.filterMap_cons]
    cases h : f a with
    | none => exact ih.cons _
    | some b => simp only [List.map_cons, hf a b h]; exact ih.cons_cons _

/-- what may become of a set: as long as it is held it stays and is held, unless nothing belongs to it -/
theorem change_start {w w' : Cluster} (hs : Start w) {f : SetRec → Option SetRec} (hw : w' = { w with sets := w.sets.filterMap f })
    (hk : ∀ s s', f s = some s' → s'.name = s.name ∧ s'.owners = s.owners ∧ s'.labels = s.labels ∧ s'.sel = s.sel ∧ s'.obj.uid = s.obj.uid)
    (hf : ∀ s ∈ w.sets, Held s.obj → (∃ s', f s = some s' ∧ Held s'.obj) ∨ ∀ r ∈ w.machines, ¬ OfSet s r) : Start w' := by
  subst hw
  refine ⟨List.Nodup.sublist (filterMap_names (fun s s' h => (hk s s' h).1) w.sets) hs.names, fun s' hs' => ?_, fun r hr => ?_, hs.sound, hs.orphans⟩
  · obtain ⟨s, h0, h1⟩ := List.mem_filterMap.1 hs'
    obtain ⟨d, k1, k2, k3, k4⟩ := hs.sets s h0
    obtain ⟨_, e2, e3, _, _⟩ := hk s s' h1
    refine ⟨d, k1, k2, ?_, ?_⟩
    · show ⟨d.uid, true⟩ ∈ s'.owners
      rw [e2]; exact k3
    · show w.sel s'.labels = true
      rw [e3]; exact k4
  · obtain ⟨s, h0, h1, h2⟩ := hs.machines r hr
    rcases hf s h0 h1 with ⟨s', k1, k2⟩ | h
    · obtain ⟨_, _, _, e4, e5⟩ := hk s s' k1
      refine ⟨s', List.mem_filterMap.2 ⟨s, h0, k1⟩, k2, ?_, ?_⟩
      · rw [e5]; exact h2.1
      · rw [e4]; exact h2.2
    · exact absurd h2 (h r hr)

/-- what becomes of an object when its finalizers are written -/
theorem finWrite {o o' : FObj} {fs : List String} (h : applyFinWrite (some o) fs = some o') : o'.uid = o.uid := by
  unfold applyFinWrite at h
  dsimp only at h
  split at h
  · cases h; rfl
  · split at h
    · cases h
    · cases h; rfl

theorem finWrite_held {o : FObj} {fs : List String} (ho : Held o) (hf : finalizerName ∈ fs) :
    ∃ o', applyFinWrite (some o) fs = some o' ∧ Held o' := applyFinWrite_keeps (some o) fs ⟨o, rfl, ho⟩ hf

theorem doomed_held {o : FObj} (ho : Held o) : ∃ o', doomed o = some o' ∧ Held o' := by
  unfold doomed
  rw [if_neg (by intro h; rw [List.isEmpty_iff] at h; unfold Held at ho; rw [h] at ho; cases ho)]
  exact ⟨_, rfl, ho⟩

theorem doomed_uid {o o' : FObj} (h : doomed o = some o') : o'.uid = o.uid := by
  unfold doomed at h
  split at h
  · cases h
  · cases h; rfl

theorem edited_held {o : FObj} {fs : List String} (ho : Held o) : ∃ o', edited fs o = some o' ∧ Held o' := by
  unfold edited
  split
  · rename_i h
    refine finWrite_held ho ?_
    have h1 : o.finalizers.contains finalizerName = true := List.contains_iff_mem.2 ho
    rw [h1] at h
    simp only [beq_iff_eq] at h
    exact List.contains_iff_mem.1 h.symm
  · exact ⟨o, rfl, ho⟩

theorem edited_uid {o o' : FObj} {fs : List String} (h : edited fs o = some o') : o'.uid = o.uid := by
  unfold edited at h
  split at h
  · exact finWrite h
  · cases h; rfl

/-- changing the deployment -/
theorem dep_start {w : Cluster} (hs : Start w) {d' : Option FObj}
    (h : ∀ d, w.dep = some d → Held d → w.sets = [] ∨ ∃ o, d' = some o ∧ Held o ∧ o.uid = d.uid) : Start { w with dep := d' } := by
  refine ⟨hs.names, fun s hm => ?_, hs.machines, hs.sound, hs.orphans⟩
  obtain ⟨d, k1, k2, k3, k4⟩ := hs.sets s hm
  rcases h d k1 k2 with h | ⟨o, h1, h2, h3⟩
  · have hm' : s ∈ w.sets := hm
    rw [h] at hm'; cases hm'
  · exact ⟨o, h1, h2, by rw [h3]; exact k3, k4⟩

theorem putSet_start {w : Cluster} (hs : Start w) {n : String} {g : FObj → Option FObj} (hu : ∀ o o', g o = some o' → o'.uid = o.uid)
    (hg : ∀ s ∈ w.sets, s.name = n → Held s.obj → (∃ o', g s.obj = some o' ∧ Held o') ∨ ∀ r ∈ w.machines, ¬ OfSet s r) : Start (w.putSet n g) := by
  refine change_start hs rfl (fun s s' h => ?_) (fun s hm hh => ?_)
  · split at h
    · cases hgo : g s.obj with
      | none => rw [hgo] at h; cases h
      | some o => rw [hgo] at h; cases h; exact ⟨rfl, rfl, rfl, rfl, hu _ _ hgo⟩
    · cases h; exact ⟨rfl, rfl, rfl, rfl, rfl⟩
  · by_cases hn : s.name = n
    · rw [if_pos hn]
      rcases hg s hm hn hh with ⟨o, h1, h2⟩ | h
      · exact .inl ⟨_, by rw [h1]; rfl, h2⟩
      · exact .inr h
    · rw [if_neg hn]; exact .inl ⟨s, rfl, hh⟩

theorem dropSets_start {w : Cluster} (hs : Start w) (c : Call) (deps : List Claim.Obj) : Start (w.dropSets c deps) := by
  refine change_start hs rfl (fun s s' h => ?_) (fun s hm hh => .inl ?_)
  · split at h
    · cases hgo : doomed s.obj with
      | none => rw [hgo] at h; cases h
      | some o => rw [hgo] at h; cases h; exact ⟨rfl, rfl, rfl, rfl, doomed_uid hgo⟩
    · cases h; exact ⟨rfl, rfl, rfl, rfl, rfl⟩
  · split
    · obtain ⟨o, h1, h2⟩ := doomed_held hh
      exact ⟨_, by rw [h1]; rfl, h2⟩
    · exact ⟨s, rfl, hh⟩

/-- the writes of a run of the deployment controller -/
theorem depActs_start (c : Call) : ∀ (as : List Act) (w : Cluster), Start w → (∀ a ∈ as, Removes a → w.sets = []) → Start (as.foldl (Cluster.depAct c) w)
  | [], _, hs, _ => hs
  | a :: as, w, hs, hr => by
    rw [List.foldl_cons]
    cases a with
    | others => exact depActs_start c as w hs fun a ha => hr a (List.mem_cons_of_mem _ ha)
    | terminate deps =>
      refine depActs_start c as _ (dropSets_start hs c deps) fun a ha h => ?_
      have := hr a (List.mem_cons_of_mem _ ha) h
      unfold Cluster.depAct Cluster.dropSets
      dsimp only
      rw [this]; rfl
    | writeFinalizers fs =>
      rw [show Cluster.depAct c w (.writeFinalizers fs) = if c.lands then { w with dep := applyFinWrite w.dep fs } else w from rfl]
      split
      · refine depActs_start c as _ (dep_start hs fun d hd hh => ?_) fun a ha => hr a (List.mem_cons_of_mem _ ha)
        by_cases hf : finalizerName ∈ fs
        · obtain ⟨o, h1, h2⟩ := finWrite_held hh hf
          exact .inr ⟨o, by rw [hd]; exact h1, h2, finWrite h1⟩
        · exact .inl (hr (.writeFinalizers fs) (by simp) ⟨fs, rfl, hf⟩)
      · exact depActs_start c as w hs fun a ha => hr a (List.mem_cons_of_mem _ ha)

/-- the writes of a run of the machine set controller -/
theorem setActs_start (n : String) (c : Call) : ∀ (as : List Act) (w : Cluster), Start w →
    (∀ a ∈ as, Removes a → ∀ s ∈ w.sets, s.name = n → ∀ r ∈ w.machines, ¬ OfSet s r) → Start (as.foldl (Cluster.setAct n c) w)
  | [], _, hs, _ => hs
  | a :: as, w, hs, hr => by
    rw [List.foldl_cons]
    have hr' : ∀ a ∈ as, Removes a → ∀ s ∈ w.sets, s.name = n → ∀ r ∈ w.machines, ¬ OfSet s r := fun a ha => hr a (List.mem_cons_of_mem _ ha)
    cases a with
    | others => exact setActs_start n c as w hs hr'
    | terminate deps =>
      refine setActs_start n c as _ (onMachines_start hs (drop_keeps c deps)) fun a ha h s hsm hn r hrm hof => ?_
      obtain ⟨r0, h0, _, h2⟩ := mem_onMachines hrm
      exact hr' a ha h s hsm hn r0 h0 (by rw [h2] at hof; exact hof)
    | writeFinalizers fs =>
      rw [show Cluster.setAct n c w (.writeFinalizers fs) = if c.lands then w.putSet n fun o => applyFinWrite (some o) fs else w from rfl]
      split
      · refine setActs_start n c as _ (putSet_start hs (fun o o' h => finWrite h) fun s hsm hn hh => ?_) fun a ha h s hsm hn r hrm hof => ?_
        · by_cases hf : finalizerName ∈ fs
          · exact .inl (finWrite_held hh hf)
          · exact .inr fun r hrm => hr (.writeFinalizers fs) (by simp) ⟨fs, rfl, hf⟩ s hsm hn r hrm
        · obtain ⟨s0, h0, ⟨rfl, _⟩ | ⟨h1, h2, h3⟩⟩ := mem_putSet hsm
          · exact hr' a ha h _ h0 hn r hrm hof
          · refine hr' a ha h s0 h0 h1 r hrm ⟨?_, ?_⟩
            · rw [← finWrite h2]; exact hof.1
            · have : s.sel = s0.sel := by rw [h3]
              rw [← this]; exact hof.2
      · exact setActs_start n c as w hs hr'

/-- a run of the deployment controller removes its finalizer only when there is no set any more -/
theorem dep_removes {w : Cluster} (hs : Start w) {c : Call} (hc : SeesSets w c) {d : FObj} (hd : w.dep = some d) {a : Act} {k : Nat}
    (ha : a ∈ (reconcileDeployment d c.env w.sel c.live c.ans c.cache).take k) (hr : Removes a) : w.sets = [] := by
  obtain ⟨_, l, hl, hno⟩ := (goodDeployment d c.env w.sel c.live c.ans c.cache (fun l hl => (hc l hl).1) a (List.mem_of_mem_take ha)).1 hr
  rw [List.eq_nil_iff_forall_not_mem]
  intro s hsm
  obtain ⟨d', k1, _, k3, k4⟩ := hs.sets s hsm
  rw [hd] at k1; cases k1
  obtain ⟨o, ho, e1, e2⟩ := (hc l hl).2 s hsm
  refine hno o ho ⟨?_, ?_⟩
  · show ⟨d.uid, true⟩ ∈ o.owners
    rw [e1]; exact k3
  · rw [e2]; exact k4

/-- a run of the machine set controller removes its finalizer only when there is no machine of the set any more -/
theorem set_removes {w : Cluster} (hs : Start w) {n : String} {c : Call} (hc : SeesMachines w c) {s : SetRec} (hd : (w.sets.find? fun s => s.name == n) = some s) {a : Act} {k : Nat}
    (ha : a ∈ (reconcileSet s.obj c.env s.sel c.live c.ans c.cache).take k) (hr : Removes a) : ∀ s ∈ w.sets, s.name = n → ∀ r ∈ w.machines, ¬ OfSet s r := by
  obtain ⟨_, l, hl, hno⟩ := (goodSet s.obj c.env s.sel c.live c.ans c.cache (fun l hl => (hc l hl).1) a (List.mem_of_mem_take ha)).1 hr
  intro s' hsm hn r hrm hof
  have hsn : s.name = n := by simpa using List.find?_some hd
  have hss : s = s' := by
    have hmem := List.mem_of_find?_eq_some hd
    have hnd := hs.names
    clear hd hno hr ha hof
    revert hnd hmem hsm
    generalize w.sets = L
    intro hsm hmem hnd
    induction L with
    | nil => cases hmem
    | cons x L ih =>
      rw [List.map_cons, List.nodup_cons] at hnd
      rcases List.mem_cons.1 hmem with ha' | ha' <;> rcases List.mem_cons.1 hsm with hb' | hb'
      · rw [ha', hb']
      · exact absurd (show x.name ∈ L.map SetRec.name from List.mem_map.2 ⟨s', hb', by rw [hn, ← hsn, ha']⟩) hnd.1
      · exact absurd (show x.name ∈ L.map SetRec.name from List.mem_map.2 ⟨s, ha', by rw [hsn, ← hn, hb']⟩) hnd.1
      · exact ih hb' ha' hnd.2
  subst hss
  obtain ⟨o, ho, e1, e2⟩ := (hc l hl).2 r hrm
  refine hno o ho ⟨?_, ?_⟩
  · show ⟨s.obj.uid, true⟩ ∈ o.owners
    rw [e1]; exact hof.1
  · rw [e2]; exact hof.2

theorem step_start {w w' : Cluster} (hs : Start w) (h : Step w w') : Start w' := by
  cases h with
  | dep c hc =>
    unfold Cluster.depRun
    cases hd : w.dep with
    | none => exact hs
    | some d =>
      exact depActs_start c _ w hs fun a ha hr => dep_removes hs hc hd ha hr
  | set n c hc =>
    unfold Cluster.setRun
    cases hd : w.sets.find? fun s => s.name == n with
    | none => exact hs
    | some s =>
      exact setActs_start n c _ w hs fun a ha hr => set_removes hs hc hd ha hr
  | makeSet d s h1 h2 h3 h4 =>
    refine ⟨?_, fun s' hs' => ?_, fun r hr => ?_, hs.sound, hs.orphans⟩
    · show ((w.sets ++ [s]).map SetRec.name).Nodup
      rw [List.map_append, List.nodup_append]
      refine ⟨hs.names, by simp, fun a ha b hb hab => ?_⟩
      simp at hb
      rw [hab, hb] at ha
      exact h4 ha
    · rcases List.mem_append.1 hs' with h | h
      · exact hs.sets s' h
      · rw [List.mem_singleton.1 h]; exact ⟨d, h1, h2, h3⟩
    · obtain ⟨s', k1, k2⟩ := hs.machines r hr
      exact ⟨s', List.mem_append.2 (.inl k1), k2⟩
  | makeMachine s r h1 h2 h3 h4 =>
    refine ⟨hs.names, hs.sets, fun r' hr' => ?_, fun r' hr' => ?_, hs.orphans⟩
    · rcases List.mem_append.1 hr' with h | h
      · exact hs.machines r' h
      · rw [List.mem_singleton.1 h]; exact ⟨s, h1, h2, h3⟩
    · rcases List.mem_append.1 hr' with h | h
      · exact hs.sound r' h
      · rw [List.mem_singleton.1 h]
        obtain ⟨v, x, e1, e2⟩ := h4
        rw [e1]
        exact ⟨fun _ => rfl, fun h => by rw [e2.1] at h; cases h⟩
  | deleteDep =>
    refine dep_start hs fun d hd hh => .inr ?_
    obtain ⟨o, k1, k2⟩ := doomed_held hh
    exact ⟨o, by rw [hd]; exact k1, k2, doomed_uid k1⟩
  | deleteSet n => exact putSet_start hs (fun _ _ h => doomed_uid h) fun s _ _ hh => .inl (doomed_held hh)
  | requestMachine now n => exact onMachines_start hs (if_keeps n (request_keeps now))
  | deleteMachine now fate o n => exact onMachines_start hs (if_keeps n (prepare_keeps now fate o))
  | editDep fs =>
    refine dep_start hs fun d hd hh => .inr ?_
    obtain ⟨o, k1, k2⟩ := edited_held (fs := fs) hh
    exact ⟨o, by rw [hd]; exact k1, k2, edited_uid k1⟩
  | editSet n fs => exact putSet_start hs (fun _ _ h => edited_uid h) fun s _ _ hh => .inl (edited_held hh)
  | machine n e vm => exact onMachines_start hs (machine_keeps n e vm)
  | term n e => exact onMachines_start hs (term_keeps n e)

theorem reach_start {w0 w : Cluster} (h0 : Start w0) (h : Reach w0 w) : Start w := by
  induction h with
  | refl => exact h0
  | step _ h ih => exact step_start ih h

/-! ## Theorems on all executions -/

/-- **C115**: over any execution – any failures of calls, crashes between the writes of a run, outdated caches, deletions requested by anybody at any time – there is no machine without
the set it belongs to, no set without the deployment, and no VM without its machine. **Partial**: the caches must not miss objects that exist (`C115_missing_in_cache_false`),
the deployment must have got its finalizer (`C115_unprotected_false`), and labels must not change (`C115_relabelled_false`). -/
theorem C115_goes_last_partial (w0 w : Cluster) (h0 : Start w0) (h : Reach w0 w) :
    (w.dep = none → Nothing w) ∧ (∀ s ∈ w.sets, ∃ d, w.dep = some d ∧ OfDep w.sel d s) ∧ (∀ r ∈ w.machines, ∃ s ∈ w.sets, OfSet s r) ∧ w.orphans = [] := by
  have hs := reach_start h0 h
  have hsets : ∀ s ∈ w.sets, ∃ d, w.dep = some d ∧ OfDep w.sel d s := fun s hm => by
    obtain ⟨d, h1, _, h3⟩ := hs.sets s hm; exact ⟨d, h1, h3⟩
  have hmach : ∀ r ∈ w.machines, ∃ s ∈ w.sets, OfSet s r := fun r hm => by
    obtain ⟨s, h1, _, h3⟩ := hs.machines r hm; exact ⟨s, h1, h3⟩
  refine ⟨fun hd => ?_, hsets, hmach, hs.orphans⟩
  have h1 : w.sets = [] := List.eq_nil_iff_forall_not_mem.2 fun s hm => by
    obtain ⟨d, k, _⟩ := hsets s hm; rw [hd] at k; cases k
  refine ⟨h1, List.eq_nil_iff_forall_not_mem.2 fun r hm => ?_, hs.orphans⟩
  obtain ⟨s, k, _⟩ := hmach r hm
  rw [h1] at k; cases k

/-! ## Undisturbed runs -/

/-- what a step is -/
inductive Lab
  | dep
  | set (n : String)
  /-- a run of the termination for this machine, more than 30 minutes after the last write of its status (earlier ones may be held back) -/
  | served (n : String)
  | other
deriving DecidableEq

/-- all calls of the run succeed -/
structure Clear (c : Call) : Prop where
  valid : c.env.valid = true
  selector : c.env.selectorOk = true
  fin : c.env.finWriteOk = true
  sync : c.env.syncOk = true
  lands : c.lands = true
  crash : 10 ≤ c.crash
  fate : ∀ n, c.fate n = .done

/-- the cache shows the sets as they are, and nothing else that looks like a set of the deployment -/
def ShowsSets (w : Cluster) (c : Call) : Prop := ∃ l, c.cache = some l ∧ (∀ o ∈ l, OneController o) ∧ (∀ s ∈ w.sets, s.seen ∈ l) ∧
  ∀ d, w.dep = some d → ∀ o ∈ l, Dependent d.uid w.sel o → ∃ s ∈ w.sets, s.seen = o

/-- the cache shows the machines as they are, and nothing else that looks like a machine of the set -/
def ShowsMachines (w : Cluster) (n : String) (c : Call) : Prop := ∃ l, c.cache = some l ∧ (∀ o ∈ l, OneController o) ∧ (∀ r ∈ w.machines, r.seen ∈ l) ∧
  ∀ s ∈ w.sets, s.name = n → ∀ o ∈ l, Dependent s.obj.uid s.sel o → ∃ r ∈ w.machines, r.seen = o

/-- One undisturbed step after the deletion of the deployment was requested. -/
inductive Quiet (w : Cluster) : Lab → Cluster → Prop
  | dep (c : Call) : Clear c → ShowsSets w c → Quiet w .dep (w.depRun c)
  | set (n : String) (c : Call) : Clear c → ShowsMachines w n c → Quiet w (.set n) (w.setRun n c)
  /-- a set that does not know yet that it is to go may make machines -/
  | makeMachine (s : SetRec) (r : MachRec) : s ∈ w.sets → s.obj.deleting = false → Held s.obj → OfSet s r → Fleet.Fresh r.m →
      r.m.name ∉ w.machines.map (fun r => r.m.name) → Quiet w .other { w with machines := w.machines ++ [r] }
  | deleteSet (n : String) : Quiet w .other (w.putSet n doomed)
  | killMachine (now : Int) (n : String) : Quiet w .other (w.onMachines fun m => if m.name = n then Fleet.kill now m else some m)
  | requestMachine (now : Int) (n : String) : Quiet w .other (w.onMachines fun m => if m.name = n then request now m else some m)
  | machine (r : MachRec) (e : Lifecycle.Env) (vm : Creation.VM) (vms : List Creation.VM) (v : Lifecycle.Obj) (x : Fleet.Extra) : r ∈ w.machines →
      r.m = .live vms v x → Lifecycle.Good e vm v → Termination.NameLike vm.node → Quiet w .other (w.onMachines (Fleet.machineRun v.name e vm))
  | late (r : MachRec) (e : Termination.Env) (vms : List Creation.VM) (t : Termination.Obj) (p : Option String) (c : Int) (tr : Bool) : r ∈ w.machines →
      r.m = .dying vms t p c tr → Termination.Coop e → t.st.opTime + Similar.tolerance < e.now →
      Quiet w (.served t.name) (w.onMachines (Fleet.termRun t.name e))
  | early (n : String) (e : Termination.Env) : Termination.Coop e → Quiet w .other (w.onMachines (Fleet.termRun n e))

inductive Quiets : Cluster → List Lab → Cluster → Prop
  | nil (w : Cluster) : Quiets w [] w
  | cons {w w1 w2 : Cluster} {l : Lab} {ls : List Lab} : Quiet w l w1 → Quiets w1 ls w2 → Quiets w (l :: ls) w2

/-- Undisturbed steps in any order; among them a run for the deployment, one for every set that is there before and after, and one of the termination for every machine that
is being deleted before and after. -/
def Epoch (w w' : Cluster) : Prop :=
  ∃ ls, Quiets w ls w' ∧ .dep ∈ ls ∧ (∀ s ∈ w.sets, ∀ s' ∈ w'.sets, s.name = s'.name → .set s.name ∈ ls) ∧
    ∀ r ∈ w.machines, ∀ r' ∈ w'.machines, r.m.name = r'.m.name → r.m.isDying = true → r'.m.isDying = true → .served r.m.name ∈ ls

inductive Epochs : Nat → Cluster → Cluster → Prop
  | zero (w : Cluster) : Epochs 0 w w
  | succ {n : Nat} {w w1 w2 : Cluster} : Epoch w w1 → Epochs n w1 w2 → Epochs (n + 1) w w2

/-- The deployment is being deleted, or is already gone; nobody else's finalizers hold it or its sets; the machines are in order, in whatever phase they are. -/
structure Going (w : Cluster) : Prop where
  start : Start w
  dep : ∀ d, w.dep = some d → d.deleting = true ∧ Held d ∧ ∀ f ∈ d.finalizers, f = "machine.sapcloud.io/machine-controller-manager"
  sets : ∀ s ∈ w.sets, (∀ f ∈ s.obj.finalizers, f = "machine.sapcloud.io/machine-controller-manager") ∧ (s.obj.deleting = true → Held s.obj)
  ok : ∀ r ∈ w.machines, Recovery.Fair r.m
  names : (w.machines.map fun r => r.m.name).Nodup

/-- all sets know that they are to go -/
def Told (w : Cluster) : Prop := ∀ s ∈ w.sets, s.obj.deleting = true

/-- how much a machine has before it -/
def rank : Fleet.M → Nat
  | .live _ _ _ => 9
  | .dying _ t _ _ _ => Termination.left t

theorem rank_dying {m : Fleet.M} (h : m.isDying = true) : rank m ≤ 8 := by
  cases m with
  | live _ _ _ => cases h
  | dying _ t _ _ _ => exact Fleet.left_eight t

theorem dying_rank {m : Fleet.M} (h : rank m ≤ 8) : m.isDying = true := by
  cases m with
  | live _ _ _ => exact absurd (show (9 : Nat) ≤ 8 from h) (by omega)
  | dying _ _ _ _ _ => rfl

theorem rank_pos {m : Fleet.M} (h : Recovery.Fair m) : 0 < rank m := by
  cases m with
  | live _ _ _ => exact (show (0 : Nat) < 9 by omega)
  | dying _ t _ _ _ => exact Fleet.left_pos h.1

/-! ### What the runs do -/

theorem eraseDups_all {l : List String} {x : String} (h : ∀ f ∈ l, f = x) : l.eraseDups.filter (· != x) = [] := by
  rw [List.filter_eq_nil_iff]
  intro a ha
  rw [h a (List.mem_eraseDups.1 ha)]
  simp

theorem delFin_own {o : FObj} (hh : Held o) (ho : ∀ f ∈ o.finalizers, f = "machine.sapcloud.io/machine-controller-manager") : delFin o = [.writeFinalizers []] := by
  unfold delFin
  rw [if_pos (show finalizerName ∈ o.finalizers from hh)]
  rw [show o.finalizers.eraseDups.filter (· != finalizerName) = [] from eraseDups_all ho]

theorem addFin_own {o : FObj} (ho : ∀ f ∈ o.finalizers, f = "machine.sapcloud.io/machine-controller-manager") : addFin o = [] ∨ addFin o = [.writeFinalizers [finalizerName]] := by
  unfold addFin
  split
  · exact .inl rfl
  · rename_i h
    have : o.finalizers = [] := List.eq_nil_iff_forall_not_mem.2 fun f hf => h (by rw [← show f = finalizerName from ho f hf]; exact hf)
    rw [this]
    exact .inr rfl

theorem fin_gone {o : FObj} (hd : o.deleting = true) : applyFinWrite (some o) [] = none := by
  unfold applyFinWrite
  simp [hd]

theorem clear_take {c : Call} (hc : Clear c) {as : List Act} (h : as.length ≤ 10) : as.take c.crash = as :=
  List.take_of_length_le (by have := hc.crash; omega)

/-- no claiming by an object that is being deleted fails -/
theorem claim_err (uid : String) (sel : SMap → Bool) (live : Option Ctrl) (ans : Claim.Obj → Option ApiErr) (memo : Option Bool) (l : List Claim.Obj) :
    (claimAll ⟨uid, true⟩ sel live ans memo l).2.1 = false := by
  induction l generalizing memo with
  | nil => rfl
  | cons x xs ih =>
    simp only [claimAll]
    rw [ih]
    unfold claimObject
    (repeat' split) <;> simp_all

/-- a run of the deployment controller -/
theorem dep_cases {w : Cluster} (hg : Going w) {c : Call} (hc : Clear c) (hs : ShowsSets w c) :
    (w.dep = none ∧ w.depRun c = w) ∨ (w.sets = [] ∧ w.depRun c = { w with dep := none }) ∨
    ∃ l, w.depRun c = w.dropSets c l ∧ w.dep ≠ none ∧ ∀ s ∈ w.sets, s.obj.deleting = false → s.seen ∈ l := by
  cases hd : w.dep with
  | none => left; exact ⟨rfl, by unfold Cluster.depRun; rw [hd]⟩
  | some d =>
    right
    obtain ⟨k1, k2, k3⟩ := hg.dep d hd
    obtain ⟨l, e1, e2, e3, e4⟩ := hs
    have hdep : ∀ s ∈ w.sets, Dependent d.uid w.sel s.seen := by
      intro s hm
      obtain ⟨d', h1, _, h3, h4⟩ := hg.start.sets s hm
      rw [hd] at h1; cases h1
      exact ⟨h3, h4⟩
    by_cases hex : ∃ o ∈ l, Dependent d.uid w.sel o
    · right
      obtain ⟨ds, h1, h2⟩ := C07_deployment_terminates_all d c.env w.sel c.live c.ans l e2 k1 k2 hc.valid hc.selector hc.sync hex
      refine ⟨ds, ?_, by simp, fun s hm hf => (h2 _).2 ⟨e3 s hm, hdep s hm, hf⟩⟩
      unfold Cluster.depRun
      rw [hd, e1]
      dsimp only
      rw [h1, clear_take hc (by simp)]
      rfl
    · left
      have hno : ∀ o ∈ l, ¬ Dependent d.uid w.sel o := fun o ho h => hex ⟨o, ho, h⟩
      refine ⟨List.eq_nil_iff_forall_not_mem.2 fun s hm => hno _ (e3 s hm) (hdep s hm), ?_⟩
      have hcl : (claimAll ⟨d.uid, true⟩ w.sel c.live c.ans none l).1 = [] := List.eq_nil_iff_forall_not_mem.2 fun o ho => by
        obtain ⟨h1, h2⟩ := (claimed_deleting d.uid w.sel c.live c.ans l e2 o).1 ho
        exact hno o h1 h2
      have hrun : reconcileDeployment d c.env w.sel c.live c.ans (some l) = [.writeFinalizers []] := by
        have hf' : finalizerName ∈ d.finalizers := k2
        simp [reconcileDeployment, hc.valid, k1, hc.selector, hc.sync, claim_err, hcl, hf', delFin_own k2 k3]
      unfold Cluster.depRun
      rw [hd, e1]
      dsimp only
      rw [hrun, clear_take hc (by simp)]
      rw [List.foldl_cons, List.foldl_nil]
      rw [show Cluster.depAct c w (.writeFinalizers []) = if c.lands then { w with dep := applyFinWrite w.dep [] } else w from rfl]
      rw [if_pos hc.lands, hd, fin_gone k1]

theorem set_unique {L : List SetRec} (hnd : (L.map SetRec.name).Nodup) {a b : SetRec} (ha : a ∈ L) (hb : b ∈ L) (hab : a.name = b.name) : a = b := by
  induction L with
  | nil => cases ha
  | cons x L ih =>
    rw [List.map_cons, List.nodup_cons] at hnd
    rcases List.mem_cons.1 ha with ha' | ha' <;> rcases List.mem_cons.1 hb with hb' | hb'
    · rw [ha', hb']
    · exact absurd (show x.name ∈ L.map SetRec.name from List.mem_map.2 ⟨b, hb', by rw [← hab, ha']⟩) hnd.1
    · exact absurd (show x.name ∈ L.map SetRec.name from List.mem_map.2 ⟨a, ha', by rw [hab, hb']⟩) hnd.1
    · exact ih hnd.2 ha' hb'

/-- a run of the machine set controller -/
theorem set_cases {w : Cluster} (hg : Going w) {n : String} {c : Call} (hc : Clear c) (hs : ShowsMachines w n c) :
    ((∀ s ∈ w.sets, s.name = n → s.obj.deleting = false) ∧ (w.setRun n c = w ∨ w.setRun n c = w.putSet n fun o => applyFinWrite (some o) [finalizerName])) ∨
    ∃ s ∈ w.sets, s.name = n ∧ s.obj.deleting = true ∧
      ((w.setRun n c = w.putSet n (fun o => applyFinWrite (some o) []) ∧ ∀ r ∈ w.machines, ¬ OfSet s r) ∨
       ∃ l, w.setRun n c = w.onMachines (dropMachine c l) ∧ (∀ r ∈ w.machines, OfSet s r → r.seen ∈ l) ∧ (∀ o ∈ l, ∃ r ∈ w.machines, r.seen = o) ∧ w.machines ≠ []) := by
  cases hf : w.sets.find? fun s => s.name == n with
  | none =>
    left
    refine ⟨fun s hm hn => ?_, .inl (by unfold Cluster.setRun; rw [hf])⟩
    have := List.find?_eq_none.1 hf s hm
    rw [hn] at this
    simp at this
  | some s =>
    have hsn : s.name = n := by simpa using List.find?_some hf
    have hmem := List.mem_of_find?_eq_some hf
    obtain ⟨l, e1, e2, e3, e4⟩ := hs
    obtain ⟨k1, k2⟩ := hg.sets s hmem
    have hrun : w.setRun n c = ((reconcileSet s.obj c.env s.sel c.live c.ans (some l)).take c.crash).foldl (Cluster.setAct n c) w := by
      unfold Cluster.setRun
      rw [hf, e1]
    have hwr : ∀ fs, Cluster.setAct n c w (.writeFinalizers fs) = w.putSet n fun o => applyFinWrite (some o) fs := by
      intro fs
      rw [show Cluster.setAct n c w (.writeFinalizers fs) = if c.lands then w.putSet n fun o => applyFinWrite (some o) fs else w from rfl, if_pos hc.lands]
    cases hdel : s.obj.deleting with
    | false =>
      left
      refine ⟨fun s' hm hn => by rw [set_unique hg.start.names hm hmem (hn.trans hsn.symm)]; exact hdel, ?_⟩
      have hacts : ∃ t, (t = [] ∨ t = [.others]) ∧ reconcileSet s.obj c.env s.sel c.live c.ans (some l) = addFin s.obj ++ t := by
        unfold reconcileSet
        rw [if_neg (by simp [hc.valid])]
        dsimp only
        simp only [hdel, hc.fin, hc.selector, hc.sync, Bool.not_true, Bool.and_false, Bool.not_false, if_true, Bool.false_eq_true, if_false]
        split
        · exact ⟨[], .inl rfl, by simp⟩
        · exact ⟨_, .inr rfl, rfl⟩
      obtain ⟨t, ht, hacts⟩ := hacts
      have hlen : (addFin s.obj ++ t).length ≤ 10 := by
        rcases addFin_own k1 with h | h <;> rcases ht with h' | h' <;> rw [h, h'] <;> simp
      rw [hrun, hacts, clear_take hc hlen]
      rcases addFin_own k1 with h | h <;> rcases ht with h' | h' <;> rw [h, h']
      · exact .inl rfl
      · exact .inl rfl
      · exact .inr (hwr _)
      · exact .inr (hwr _)
    | true =>
      right
      refine ⟨s, hmem, hsn, hdel, ?_⟩
      have hheld := k2 hdel
      by_cases hex : ∃ o ∈ l, Dependent s.obj.uid s.sel o
      · right
        obtain ⟨ds, h1, h2⟩ := C07_machineSet_terminates_all s.obj c.env s.sel c.live c.ans l e2 hdel hheld hc.valid hc.selector hc.sync hex
        refine ⟨ds, ?_, fun r hm hof => (h2 _).2 ⟨e3 r hm, hof⟩, fun o ho => ?_, fun hnil => ?_⟩
        · rw [hrun, h1, clear_take hc (by simp)]
          rfl
        · obtain ⟨h3, h4⟩ := (h2 o).1 ho
          exact e4 s hmem hsn o h3 h4
        · obtain ⟨o, h3, h4⟩ := hex
          obtain ⟨r, h5, _⟩ := e4 s hmem hsn o h3 h4
          rw [hnil] at h5; cases h5
      · left
        have hno : ∀ o ∈ l, ¬ Dependent s.obj.uid s.sel o := fun o ho h => hex ⟨o, ho, h⟩
        refine ⟨?_, fun r hm hof => hno _ (e3 r hm) hof⟩
        have hcl : (claimAll ⟨s.obj.uid, true⟩ s.sel c.live c.ans none l).1 = [] := List.eq_nil_iff_forall_not_mem.2 fun o ho => by
          obtain ⟨h1, h2⟩ := (claimed_deleting s.obj.uid s.sel c.live c.ans l e2 o).1 ho
          exact hno o h1 h2
        have hacts : reconcileSet s.obj c.env s.sel c.live c.ans (some l) = [.writeFinalizers [], .others] := by
          simp [reconcileSet, hc.valid, hdel, hc.selector, hc.sync, hc.fin, claim_err, hcl, delFin_own hheld k1]
        rw [hrun, hacts, clear_take hc (by simp), List.foldl_cons, List.foldl_cons, List.foldl_nil, hwr]
        rfl

/-! ### Machines in undisturbed runs -/

theorem rec_unique {L : List MachRec} (hnd : (L.map fun r => r.m.name).Nodup) {a b : MachRec} (ha : a ∈ L) (hb : b ∈ L) (hab : a.m.name = b.m.name) : a = b := by
  induction L with
  | nil => cases ha
  | cons x L ih =>
    rw [List.map_cons, List.nodup_cons] at hnd
    rcases List.mem_cons.1 ha with ha' | ha' <;> rcases List.mem_cons.1 hb with hb' | hb'
    · rw [ha', hb']
    · exact absurd (show x.m.name ∈ L.map fun r => r.m.name from List.mem_map.2 ⟨b, hb', by rw [← hab, ha']⟩) hnd.1
    · exact absurd (show x.m.name ∈ L.map fun r => r.m.name from List.mem_map.2 ⟨a, ha', by rw [hab, hb']⟩) hnd.1
    · exact ih hnd.2 ha' hb'

/-- machines keep their names, stay in order and do not fall back -/
def Fine (w : Cluster) (f : Fleet.M → Option Fleet.M) : Prop :=
  ∀ r ∈ w.machines, ∀ m', f r.m = some m' → m'.name = r.m.name ∧ Recovery.Fair m' ∧ rank m' ≤ rank r.m

theorem kill_keeps (now : Int) : Keeps (Fleet.kill now) := by
  intro m hs
  cases m with
  | dying vms t p c tr => exact keeps_self _ hs
  | live vms v x => exact prepare_keeps now .done { name := "", uid := "", labels := [], deleting := false, owners := [] } _ hs

theorem kill_fine (now : Int) {m m' : Fleet.M} (h : Recovery.Fair m) (hk : Fleet.kill now m = some m') : m'.name = m.name ∧ Recovery.Fair m' ∧ rank m' ≤ rank m := by
  obtain ⟨h1, h2⟩ := (Recovery.kill_fair now h).1 _ hk
  refine ⟨h1, h2, ?_⟩
  cases m with
  | dying vms t p c tr => cases hk; exact Nat.le_refl _
  | live vms v x => exact Nat.le_trans (rank_dying (Fleet.kill_dying hk)) (show 8 ≤ 9 by omega)

theorem request_fine (now : Int) {m m' : Fleet.M} (h : Recovery.Fair m) (hk : request now m = some m') : m'.name = m.name ∧ Recovery.Fair m' ∧ rank m' ≤ rank m := by
  obtain ⟨h1, h2⟩ := (Recovery.request_fair now h).1 _ hk
  refine ⟨h1, h2, ?_⟩
  cases m with
  | dying vms t p c tr => cases hk; exact Nat.le_refl _
  | live vms v x =>
    unfold request at hk
    dsimp only at hk
    split at hk
    · cases hk; exact Nat.le_trans (Fleet.left_eight _) (show 8 ≤ 9 by omega)
    · cases hk

theorem term_fine {n : String} {e : Termination.Env} (hc : Termination.Coop e) {m m' : Fleet.M} (h : Recovery.Fair m) (hk : Fleet.termRun n e m = some m') :
    m'.name = m.name ∧ Recovery.Fair m' ∧ rank m' ≤ rank m := by
  obtain ⟨h1, h2⟩ := (Recovery.termRun_fair hc h).1 _ hk
  refine ⟨h1, h2, ?_⟩
  cases m with
  | live vms v x => cases hk; exact Nat.le_refl _
  | dying vms t p c tr =>
    unfold Fleet.termRun at hk
    dsimp only at hk
    split at hk
    · split at hk
      · cases hk; exact (Fleet.left_drop h.1 hc).1
      · cases hk
    · cases hk; exact Nat.le_refl _

/-- a late run makes progress -/
theorem term_less {e : Termination.Env} (hc : Termination.Coop e) {vms : List Creation.VM} {t : Termination.Obj} {p : Option String} {c : Int} {tr : Bool} {m' : Fleet.M}
    (h : Recovery.Fair (.dying vms t p c tr)) (hn : t.st.opTime + Similar.tolerance < e.now) (hk : Fleet.termRun t.name e (.dying vms t p c tr) = some m') :
    rank m' < rank (.dying vms t p c tr) := by
  unfold Fleet.termRun at hk
  dsimp only at hk
  rw [if_pos rfl] at hk
  split at hk
  · cases hk; exact (Fleet.left_drop h.1 hc).2 hn
  · cases hk

theorem machine_fine {w : Cluster} (hg : Going w) {r : MachRec} {e : Lifecycle.Env} {vm : Creation.VM} {vms : List Creation.VM} {v : Lifecycle.Obj} {x : Fleet.Extra}
    (hm : r ∈ w.machines) (hr : r.m = .live vms v x) (hgood : Lifecycle.Good e vm v) (hnl : Termination.NameLike vm.node) :
    Fine w (Fleet.machineRun v.name e vm) := by
  intro r' hr' m' hk
  have hok := hg.ok r' hr'
  cases hm' : r'.m with
  | dying vms t p c tr => rw [hm'] at hk hok; cases hk; exact ⟨rfl, hok, Nat.le_refl _⟩
  | live vms' v' x' =>
    rw [hm'] at hk hok
    unfold Fleet.machineRun at hk
    dsimp only at hk
    split at hk
    · rename_i heq
      have : r' = r := rec_unique hg.names hr' hm (by rw [hm', hr]; exact heq)
      rw [this, hr] at hm'
      cases hm'
      cases hk
      obtain ⟨h1, h2⟩ := Recovery.live_fair hgood hnl hok
      exact ⟨h2, h1, Nat.le_refl _⟩
    · cases hk; exact ⟨rfl, hok, Nat.le_refl _⟩

/-- terminating machines that are there -/
theorem drop_fine {w : Cluster} (hg : Going w) (c : Call) (hc : Clear c) {l : List Claim.Obj} (hl : ∀ o ∈ l, ∃ r ∈ w.machines, r.seen = o) {r : MachRec} (hr : r ∈ w.machines)
    {m' : Fleet.M} (hk : dropMachine c l r.m = some m') :
    m'.name = r.m.name ∧ Recovery.Fair m' ∧ rank m' ≤ rank r.m ∧ (r.seen ∈ l → rank m' ≤ 8) := by
  have hok := hg.ok r hr
  unfold dropMachine at hk
  cases hf : l.find? fun o => o.name == r.m.name with
  | none =>
    rw [hf] at hk
    cases hk
    refine ⟨rfl, hok, Nat.le_refl _, fun h => ?_⟩
    have := List.find?_eq_none.1 hf _ h
    exact absurd (show (r.seen.name == r.m.name) = true by unfold MachRec.seen; simp) this
  | some o =>
    rw [hf] at hk
    dsimp only at hk
    have hon : o.name = r.m.name := by simpa using List.find?_some hf
    obtain ⟨r0, h0, rfl⟩ := hl o (List.mem_of_find?_eq_some hf)
    have : r0 = r := rec_unique hg.names h0 hr hon
    subst this
    unfold prepare at hk
    rw [hc.fate] at hk
    cases hm : r0.m with
    | dying vms t p cc tr =>
      rw [if_pos (by unfold MachRec.seen; rw [hm]; rfl)] at hk
      cases hk
      rw [hm] at hok ⊢
      exact ⟨rfl, hok, Nat.le_refl _, fun _ => Fleet.left_eight t⟩
    | live vms v x =>
      rw [if_neg (by unfold MachRec.seen; rw [hm]; simp [Fleet.M.isDying]), hm] at hk
      rw [hm] at hok
      obtain ⟨h1, h2, h3⟩ := kill_fine c.now hok hk
      exact ⟨h1, h2, h3, fun _ => rank_dying (Fleet.kill_dying hk)⟩

theorem rec_names {f : MachRec → Option MachRec} : ∀ {l : List MachRec}, (∀ r ∈ l, ∀ r', f r = some r' → r'.m.name = r.m.name) →
    ((l.filterMap f).map fun r => r.m.name).Sublist (l.map fun r => r.m.name)
  | [], _ => .slnil
  | a :: l, hf => by
    have ih := rec_names (f := f) (l := l) (fun r hr => hf r (List.mem_cons_of_mem _ hr))
    rw [List.filterMap_cons]
    cases h : f a with
    | none => exact ih.cons _
    | some b => simp only [List.map_cons, hf a (by simp) b h]; exact ih.cons_cons _

theorem onMachines_going {w : Cluster} (hg : Going w) {f : Fleet.M → Option Fleet.M} (hk : Keeps f) (hf : Fine w f) : Going (w.onMachines f) := by
  refine ⟨onMachines_start hg.start hk, hg.dep, hg.sets, fun r hr => ?_, ?_⟩
  · obtain ⟨r0, h0, h1, _⟩ := mem_onMachines hr
    exact (hf r0 h0 _ h1).2.1
  · refine List.Nodup.sublist (rec_names fun r hr r' h => ?_) hg.names
    cases hfm : f r.m with
    | none => rw [hfm] at h; cases h
    | some m => rw [hfm] at h; cases h; exact (hf r hr _ hfm).1

/-- a change that applies to one machine only -/
theorem if_fine {w : Cluster} (hg : Going w) (n : String) {f : Fleet.M → Option Fleet.M}
    (hf : ∀ m m', Recovery.Fair m → f m = some m' → m'.name = m.name ∧ Recovery.Fair m' ∧ rank m' ≤ rank m) : Fine w fun m => if m.name = n then f m else some m := by
  intro r hr m' hk
  dsimp only at hk
  split at hk
  · exact hf _ _ (hg.ok r hr) hk
  · cases hk; exact ⟨rfl, hg.ok r hr, Nat.le_refl _⟩

/-! ### Sets in undisturbed runs -/

theorem doomed_own {o o' : FObj} (ho : ∀ f ∈ o.finalizers, f = "machine.sapcloud.io/machine-controller-manager") (h : doomed o = some o') :
    (∀ f ∈ o'.finalizers, f = "machine.sapcloud.io/machine-controller-manager") ∧ o'.deleting = true ∧ Held o' := by
  unfold doomed at h
  split at h
  · cases h
  · rename_i hne
    cases h
    refine ⟨ho, rfl, ?_⟩
    show "machine.sapcloud.io/machine-controller-manager" ∈ o.finalizers
    cases hfs : o.finalizers with
    | nil => rw [hfs] at hne; exact absurd rfl hne
    | cons a l => rw [← ho a (by rw [hfs]; simp)]; simp

/-- sets of a new list come from the old ones, and are in order -/
theorem sets_going {w w' : Cluster} (hg : Going w) (hs : Start w') (hd : w'.dep = w.dep) (hm : w'.machines = w.machines)
    (h : ∀ s ∈ w'.sets, (∀ f ∈ s.obj.finalizers, f = "machine.sapcloud.io/machine-controller-manager") ∧ (s.obj.deleting = true → Held s.obj)) : Going w' :=
  ⟨hs, by rw [hd]; exact hg.dep, h, by rw [hm]; exact hg.ok, by rw [hm]; exact hg.names⟩

theorem deleteSet_going {w : Cluster} (hg : Going w) (n : String) : Going (w.putSet n doomed) := by
  refine sets_going hg (step_start hg.start (.deleteSet n)) rfl rfl fun s hs => ?_
  obtain ⟨s0, h0, ⟨rfl, _⟩ | ⟨_, h2, _⟩⟩ := mem_putSet hs
  · exact hg.sets _ h0
  · obtain ⟨k1, _, k3⟩ := doomed_own (hg.sets s0 h0).1 h2
    exact ⟨k1, fun _ => k3⟩

theorem mem_dropSets {w : Cluster} {c : Call} {l : List Claim.Obj} {s : SetRec} (h : s ∈ (w.dropSets c l).sets) :
    ∃ s0 ∈ w.sets, (s0 = s ∧ ¬ ((l.any fun o => o.name == s.name) && decide (c.fate s.name = .done)) = true) ∨
      (doomed s0.obj = some s.obj ∧ s = { s0 with obj := s.obj }) := by
  obtain ⟨s0, h0, h1⟩ := List.mem_filterMap.1 h
  split at h1
  · cases hg : doomed s0.obj with
    | none => rw [hg] at h1; cases h1
    | some o => rw [hg] at h1; cases h1; exact ⟨s0, h0, .inr ⟨hg, rfl⟩⟩
  · rename_i hn; cases h1; exact ⟨_, h0, .inl ⟨rfl, hn⟩⟩

theorem shows_sees_sets {w : Cluster} {c : Call} (h : ShowsSets w c) : SeesSets w c := by
  obtain ⟨l, e1, e2, e3, _⟩ := h
  intro l' hl'
  rw [e1] at hl'; cases hl'
  exact ⟨e2, fun s hs => ⟨s.seen, e3 s hs, rfl, rfl⟩⟩

theorem shows_sees_machines {w : Cluster} {n : String} {c : Call} (h : ShowsMachines w n c) : SeesMachines w c := by
  obtain ⟨l, e1, e2, e3, _⟩ := h
  intro l' hl'
  rw [e1] at hl'; cases hl'
  exact ⟨e2, fun r hr => ⟨r.seen, e3 r hr, rfl, rfl⟩⟩

theorem finWrite_live {o o' : FObj} {fs : List String} (h : applyFinWrite (some o) fs = some o') (hd : o.deleting = false) :
    o'.deleting = false ∧ o'.finalizers = fs := by
  unfold applyFinWrite at h
  simp only [hd] at h
  simp at h
  rw [← h]
  exact ⟨by first | exact hd | rfl, rfl⟩

/-! ### One undisturbed step -/

theorem quiet_going {w w' : Cluster} {l : Lab} (hg : Going w) (h : Quiet w l w') : Going w' := by
  cases h with
  | dep c hc hs =>
    have hst := step_start hg.start (.dep c (shows_sees_sets hs))
    rcases dep_cases hg hc hs with ⟨_, h⟩ | ⟨_, h⟩ | ⟨l, h, _⟩ <;> rw [h] at hst ⊢
    · exact hg
    · exact ⟨hst, fun d hd => (by cases hd), hg.sets, hg.ok, hg.names⟩
    · refine sets_going hg hst rfl rfl fun s hs => ?_
      obtain ⟨s0, h0, ⟨rfl, _⟩ | ⟨h2, _⟩⟩ := mem_dropSets hs
      · exact hg.sets _ h0
      · obtain ⟨k1, _, k3⟩ := doomed_own (hg.sets s0 h0).1 h2
        exact ⟨k1, fun _ => k3⟩
  | set n c hc hs =>
    have hst := step_start hg.start (.set n c (shows_sees_machines hs))
    rcases set_cases hg hc hs with ⟨hno, h | h⟩ | ⟨s, hm, hn, hd, ⟨h, _⟩ | ⟨l, h, _, hl, _⟩⟩ <;> rw [h] at hst ⊢
    · exact hg
    · refine sets_going hg hst rfl rfl fun s hs => ?_
      obtain ⟨s0, h0, ⟨rfl, _⟩ | ⟨h1, h2, _⟩⟩ := mem_putSet hs
      · exact hg.sets _ h0
      · obtain ⟨k1, k2⟩ := finWrite_live h2 (hno s0 h0 h1)
        refine ⟨fun f hf => ?_, fun hd => by rw [k1] at hd; cases hd⟩
        rw [k2] at hf
        exact List.mem_singleton.1 hf
    · refine sets_going hg hst rfl rfl fun s' hs => ?_
      obtain ⟨s0, h0, ⟨rfl, _⟩ | ⟨h1, h2, _⟩⟩ := mem_putSet hs
      · exact hg.sets _ h0
      · rw [set_unique hg.start.names h0 hm (h1.trans hn.symm)] at h2
        rw [fin_gone hd] at h2
        cases h2
    · exact onMachines_going hg (drop_keeps c l) fun r hr m' hk => by
        obtain ⟨k1, k2, k3, _⟩ := drop_fine hg c hc hl hr hk
        exact ⟨k1, k2, k3⟩
  | makeMachine s r h1 h2 h3 h4 h5 h6 =>
    have hst : Start { w with machines := w.machines ++ [r] } := step_start hg.start (.makeMachine s r h1 h3 h4 (by
      obtain ⟨v, x, e, hn, _⟩ := h5; exact ⟨v, x, e, hn⟩))
    refine ⟨hst, hg.dep, hg.sets, fun r' hr' => ?_, ?_⟩
    · rcases List.mem_append.1 hr' with h | h
      · exact hg.ok r' h
      · rw [List.mem_singleton.1 h]; exact Recovery.fresh_fair (by obtain ⟨v, x, a, b, c, d, _⟩ := h5; exact ⟨v, x, a, b, c, d⟩)
    · show ((w.machines ++ [r]).map fun r => r.m.name).Nodup
      rw [List.map_append, List.nodup_append]
      refine ⟨hg.names, by simp, fun a ha b hb hab => ?_⟩
      rw [List.map_singleton, List.mem_singleton] at hb
      rw [hab, hb] at ha
      exact h6 ha
  | deleteSet n => exact deleteSet_going hg n
  | killMachine now n => exact onMachines_going hg (if_keeps n (kill_keeps now)) (if_fine hg n fun _ _ => kill_fine now)
  | requestMachine now n => exact onMachines_going hg (if_keeps n (request_keeps now)) (if_fine hg n fun _ _ => request_fine now)
  | machine r e vm vms v x h1 h2 h3 h4 => exact onMachines_going hg (machine_keeps _ _ _) (machine_fine hg h1 h2 h3 h4)
  | late r e vms t p c tr h1 h2 h3 h4 => exact onMachines_going hg (term_keeps _ _) fun r hr m' => term_fine h3 (hg.ok r hr)
  | early n e h1 => exact onMachines_going hg (term_keeps _ _) fun r hr m' => term_fine h1 (hg.ok r hr)

theorem quiets_going {w w' : Cluster} {ls : List Lab} (hg : Going w) (h : Quiets w ls w') : Going w' := by
  induction h with
  | nil _ => exact hg
  | cons h _ ih => exact ih (quiet_going hg h)

/-- where a set comes from -/
theorem quiet_sets {w w' : Cluster} {l : Lab} (hg : Going w) (h : Quiet w l w') {s' : SetRec} (hs : s' ∈ w'.sets) :
    ∃ s ∈ w.sets, s'.name = s.name ∧ s'.obj.uid = s.obj.uid ∧ s'.sel = s.sel ∧ (s.obj.deleting = true → s'.obj.deleting = true) ∧ (l = .dep → s'.obj.deleting = true) := by
  have same : s' ∈ w.sets → l ≠ .dep → ∃ s ∈ w.sets, s'.name = s.name ∧ s'.obj.uid = s.obj.uid ∧ s'.sel = s.sel ∧
      (s.obj.deleting = true → s'.obj.deleting = true) ∧ (l = .dep → s'.obj.deleting = true) := fun h hl => ⟨s', h, rfl, rfl, rfl, id, fun h => absurd h hl⟩
  cases h with
  | dep c hc hsh =>
    rcases dep_cases hg hc hsh with ⟨hd, h⟩ | ⟨he, h⟩ | ⟨l, h, _, hl⟩ <;> rw [h] at hs
    · obtain ⟨d, k, _⟩ := hg.start.sets s' hs
      rw [hd] at k; cases k
    · have hs2 : s' ∈ w.sets := hs
      rw [he] at hs2; cases hs2
    · obtain ⟨s0, h0, ⟨rfl, hno⟩ | ⟨h2, h3⟩⟩ := mem_dropSets hs
      · refine ⟨_, h0, rfl, rfl, rfl, id, fun _ => ?_⟩
        cases hdel : s0.obj.deleting with
        | true => rfl
        | false =>
          refine absurd ?_ hno
          rw [hc.fate, List.any_eq_true.2 ⟨s0.seen, hl _ h0 hdel, by unfold SetRec.seen; simp⟩]
          rfl
      · obtain ⟨_, k2, _⟩ := doomed_own (hg.sets s0 h0).1 h2
        exact ⟨s0, h0, by rw [h3], doomed_uid h2, by rw [h3], fun _ => k2, fun _ => k2⟩
  | set n c hc hsh =>
    have hput : ∀ fs, s' ∈ (w.putSet n fun o => applyFinWrite (some o) fs).sets → ∃ s ∈ w.sets, s'.name = s.name ∧ s'.obj.uid = s.obj.uid ∧ s'.sel = s.sel ∧
      (s.obj.deleting = true → s'.obj.deleting = true) ∧ (Lab.set n = .dep → s'.obj.deleting = true) := by
      intro fs hs
      obtain ⟨s0, h0, ⟨rfl, _⟩ | ⟨h1, h2, h3⟩⟩ := mem_putSet hs
      · exact same h0 (by simp)
      · refine ⟨s0, h0, by rw [h3], finWrite h2, by rw [h3], fun hd => ?_, fun h => by cases h⟩
        unfold applyFinWrite at h2
        dsimp only at h2
        split at h2
        · injection h2 with h2; rw [← h2]; exact hd
        · split at h2
          · cases h2
          · injection h2 with h2; rw [← h2]; first | exact hd | rfl
    rcases set_cases hg hc hsh with ⟨hno, h | h⟩ | ⟨s, hm, hn, hd, ⟨h, _⟩ | ⟨l, h, _, hl, _⟩⟩ <;> rw [h] at hs
    · exact same hs (by simp)
    · exact hput _ hs
    · exact hput _ hs
    · exact same hs (by simp)
  | deleteSet n =>
    obtain ⟨s0, h0, ⟨rfl, _⟩ | ⟨h1, h2, h3⟩⟩ := mem_putSet hs
    · exact same h0 (by simp)
    · obtain ⟨_, k2, _⟩ := doomed_own (hg.sets s0 h0).1 h2
      exact ⟨s0, h0, by rw [h3], doomed_uid h2, by rw [h3], fun _ => k2, fun _ => k2⟩
  | makeMachine s r h1 h2 h3 h4 h5 h6 => exact same hs (by simp)
  | killMachine now n => exact same hs (by simp)
  | requestMachine now n => exact same hs (by simp)
  | machine r e vm vms v x h1 h2 h3 h4 => exact same hs (by simp)
  | late r e vms t p c tr h1 h2 h3 h4 => exact same hs (by simp)
  | early n e h1 => exact same hs (by simp)

/-- where a machine comes from, once all sets know -/
theorem quiet_machines {w w' : Cluster} {l : Lab} (hg : Going w) (ht : Told w) (h : Quiet w l w') {r' : MachRec} (hr : r' ∈ w'.machines) :
    ∃ r ∈ w.machines, r' = { r with m := r'.m } ∧ r'.m.name = r.m.name ∧ rank r'.m ≤ rank r.m ∧ (l = .served r'.m.name → rank r.m ≤ 8 → rank r'.m < rank r.m) ∧
      ∀ s ∈ w.sets, l = .set s.name → OfSet s r → rank r'.m ≤ 8 := by
  have fine : ∀ f, Fine w f → r' ∈ (w.onMachines f).machines → (∀ n, l ≠ .served n) → (∀ n, l ≠ .set n) →
      ∃ r ∈ w.machines, r' = { r with m := r'.m } ∧ r'.m.name = r.m.name ∧ rank r'.m ≤ rank r.m ∧ (l = .served r'.m.name → rank r.m ≤ 8 → rank r'.m < rank r.m) ∧
      ∀ s ∈ w.sets, l = .set s.name → OfSet s r → rank r'.m ≤ 8 := by
    intro f hf hr h1 h2
    obtain ⟨r, k0, k1, k2⟩ := mem_onMachines hr
    obtain ⟨j1, _, j3⟩ := hf r k0 _ k1
    exact ⟨r, k0, k2, j1, j3, fun h => absurd h (h1 _), fun s _ h => absurd h (h2 _)⟩
  cases h with
  | dep c hc hsh =>
    refine ⟨r', ?_, rfl, rfl, Nat.le_refl _, (fun h => by cases h), fun s _ h => by cases h⟩
    rcases dep_cases hg hc hsh with ⟨_, h⟩ | ⟨_, h⟩ | ⟨l, h, _⟩ <;> rw [h] at hr <;> exact hr
  | set n c hc hsh =>
    rcases set_cases hg hc hsh with ⟨hno, h⟩ | ⟨s, hm, hn, hd, ⟨h, he⟩ | ⟨l, h, hsee, hl, _⟩⟩
    · have hr2 : r' ∈ w.machines := by rcases h with h | h <;> rw [h] at hr <;> exact hr
      refine ⟨r', hr2, rfl, rfl, Nat.le_refl _, (fun h => by cases h), fun s hs h _ => ?_⟩
      have := ht s hs
      rw [hno s hs (by cases h; rfl)] at this
      cases this
    · rw [h] at hr
      refine ⟨r', hr, rfl, rfl, Nat.le_refl _, (fun h => by cases h), fun s' hs' h hof => ?_⟩
      rw [set_unique hg.start.names hs' hm (by cases h; exact hn.symm)] at hof
      exact absurd hof (he r' hr)
    · rw [h] at hr
      obtain ⟨r, k0, k1, k2⟩ := mem_onMachines hr
      obtain ⟨j1, _, j3, j4⟩ := drop_fine hg c hc hl k0 k1
      refine ⟨r, k0, k2, j1, j3, (fun h => by cases h), fun s' hs' h hof => ?_⟩
      rw [set_unique hg.start.names hs' hm (by cases h; exact hn.symm)] at hof
      exact j4 (hsee r k0 hof)
  | makeMachine s r h1 h2 h3 h4 h5 h6 => have := ht s h1; rw [h2] at this; cases this
  | deleteSet n => exact ⟨r', hr, rfl, rfl, Nat.le_refl _, (fun h => by cases h), fun s _ h => by cases h⟩
  | killMachine now n => exact fine _ (if_fine hg n fun _ _ => kill_fine now) hr (by simp) (by simp)
  | requestMachine now n => exact fine _ (if_fine hg n fun _ _ => request_fine now) hr (by simp) (by simp)
  | machine r e vm vms v x h1 h2 h3 h4 => exact fine _ (machine_fine hg h1 h2 h3 h4) hr (by simp) (by simp)
  | early n e h1 => exact fine _ (fun r hr m' => term_fine h1 (hg.ok r hr)) hr (by simp) (by simp)
  | late r e vms t p c tr h1 h2 h3 h4 =>
    obtain ⟨r0, k0, k1, k2⟩ := mem_onMachines hr
    obtain ⟨j1, _, j3⟩ := term_fine h3 (hg.ok r0 k0) k1
    refine ⟨r0, k0, k2, j1, j3, fun h _ => ?_, fun s _ h => by cases h⟩
    have hn : t.name = r'.m.name := by injection h
    have : r0 = r := rec_unique hg.names k0 h1 (by rw [← j1, ← hn, h2]; rfl)
    rw [this, h2] at k1 ⊢
    have hok := hg.ok r h1
    rw [h2] at hok
    exact term_less h3 hok h4 k1

/-- a set without machines goes when it is served -/
theorem quiet_set_gone {w w' : Cluster} {n : String} (hg : Going w) (ht : Told w) (hm : w.machines = []) (h : Quiet w (.set n) w') : ∀ s' ∈ w'.sets, s'.name ≠ n := by
  intro s' hs' hn'
  cases h with
  | set _ c hc hsh =>
    obtain ⟨s0, h0, e0, _⟩ := quiet_sets hg (.set n c hc hsh) hs'
    rcases set_cases hg hc hsh with ⟨hno, _⟩ | ⟨s, hmem, hn, hd, ⟨h, _⟩ | ⟨l, h, hsee, hl, hne⟩⟩
    · have := ht s0 h0
      rw [hno s0 h0 (by rw [← e0]; exact hn')] at this; cases this
    · rw [h] at hs'
      obtain ⟨s1, h1, ⟨rfl, h2⟩ | ⟨h2, h3, h4⟩⟩ := mem_putSet hs'
      · exact h2 hn'
      · rw [set_unique hg.start.names h1 hmem (h2.trans hn.symm), fin_gone hd] at h3
        cases h3
    · exact hne hm

/-- without sets the deployment goes when it is served -/
theorem quiet_dep_gone {w w' : Cluster} (hg : Going w) (hs : w.sets = []) (h : Quiet w .dep w') : w'.dep = none := by
  cases h with
  | dep c hc hsh =>
    rcases dep_cases hg hc hsh with ⟨h1, h⟩ | ⟨_, h⟩ | ⟨l, h, hd, _⟩
    · rw [h]; exact h1
    · rw [h]
    · exfalso
      obtain ⟨l0, e1, e2, e3, e4⟩ := hsh
      cases hdep : w.dep with
      | none => exact hd hdep
      | some d =>
        obtain ⟨k1, k2, k3⟩ := hg.dep d hdep
        have hnone : ∀ o ∈ l0, ¬ Dependent d.uid w.sel o := fun o ho hx => by
          obtain ⟨s, hm, _⟩ := e4 d hdep o ho hx
          rw [hs] at hm; cases hm
        have hcl : (claimAll ⟨d.uid, true⟩ w.sel c.live c.ans none l0).1 = [] := List.eq_nil_iff_forall_not_mem.2 fun o ho => by
          obtain ⟨h1, h2⟩ := (claimed_deleting d.uid w.sel c.live c.ans l0 e2 o).1 ho
          exact hnone o h1 h2
        have hf' : finalizerName ∈ d.finalizers := k2
        have hrun : reconcileDeployment d c.env w.sel c.live c.ans (some l0) = [.writeFinalizers []] := by
          simp [reconcileDeployment, hc.valid, k1, hc.selector, hc.sync, claim_err, hcl, hf', delFin_own k2 k3]
        have : (w.depRun c).dep = none := by
          unfold Cluster.depRun
          rw [hdep, e1]
          dsimp only
          rw [hrun, clear_take hc (by simp), List.foldl_cons, List.foldl_nil]
          rw [show Cluster.depAct c w (.writeFinalizers []) = if c.lands then { w with dep := applyFinWrite w.dep [] } else w from rfl]
          rw [if_pos hc.lands, hdep, fin_gone k1]
        rw [h] at this
        rw [show (w.dropSets c l).dep = w.dep from rfl, hdep] at this
        cases this

theorem quiet_dep_none {w w' : Cluster} {l : Lab} (hg : Going w) (hd : w.dep = none) (h : Quiet w l w') : w'.dep = none := by
  cases h with
  | dep c hc hsh =>
    rcases dep_cases hg hc hsh with ⟨_, h⟩ | ⟨_, h⟩ | ⟨l, h, hne, _⟩ <;> rw [h]
    · exact hd
    · exact hd
  | set n c hc hsh =>
    rcases set_cases hg hc hsh with ⟨hno, h | h⟩ | ⟨s, hm, hn, hd', ⟨h, _⟩ | ⟨l, h, _⟩⟩ <;> rw [h] <;> exact hd
  | makeMachine _ _ _ _ _ _ _ _ => exact hd
  | deleteSet n => exact hd
  | killMachine now n => exact hd
  | requestMachine now n => exact hd
  | machine r e vm vms v x h1 h2 h3 h4 => exact hd
  | late r e vms t p c tr h1 h2 h3 h4 => exact hd
  | early n e h1 => exact hd

/-! ### Many undisturbed steps -/

theorem quiets_sets {w w' : Cluster} {ls : List Lab} (hg : Going w) (h : Quiets w ls w') {s' : SetRec} (hs : s' ∈ w'.sets) :
    ∃ s ∈ w.sets, s'.name = s.name ∧ s'.obj.uid = s.obj.uid ∧ s'.sel = s.sel ∧ (s.obj.deleting = true → s'.obj.deleting = true) ∧ (.dep ∈ ls → s'.obj.deleting = true) := by
  induction h with
  | nil w => exact ⟨s', hs, rfl, rfl, rfl, id, fun h => by cases h⟩
  | @cons w w1 w2 l ls h1 h2 ih =>
    obtain ⟨s1, k0, k1, k2, k3, k4, k5⟩ := ih (quiet_going hg h1) hs
    obtain ⟨s, j0, j1, j2, j3, j4, j5⟩ := quiet_sets hg h1 k0
    refine ⟨s, j0, k1.trans j1, k2.trans j2, k3.trans j3, fun h => k4 (j4 h), fun h => ?_⟩
    rcases List.mem_cons.1 h with h | h
    · exact k4 (j5 h.symm)
    · exact k5 h

theorem quiet_told {w w' : Cluster} {l : Lab} (hg : Going w) (ht : Told w) (h : Quiet w l w') : Told w' := by
  intro s' hs
  obtain ⟨s, j0, _, _, _, j4, _⟩ := quiet_sets hg h hs
  exact j4 (ht s j0)

theorem quiets_told {w w' : Cluster} {ls : List Lab} (hg : Going w) (ht : Told w) (h : Quiets w ls w') : Told w' := by
  intro s' hs
  obtain ⟨s, j0, _, _, _, j4, _⟩ := quiets_sets hg h hs
  exact j4 (ht s j0)

theorem quiets_machines {w w' : Cluster} {ls : List Lab} (hg : Going w) (ht : Told w) (h : Quiets w ls w') {r' : MachRec} (hr : r' ∈ w'.machines) :
    ∃ r ∈ w.machines, r' = { r with m := r'.m } ∧ r'.m.name = r.m.name ∧ rank r'.m ≤ rank r.m ∧ (.served r'.m.name ∈ ls → rank r.m ≤ 8 → rank r'.m < rank r.m) ∧
      ∀ s' ∈ w'.sets, .set s'.name ∈ ls → OfSet s' r' → rank r'.m ≤ 8 := by
  induction h with
  | nil w => exact ⟨r', hr, rfl, rfl, Nat.le_refl _, (fun h => by cases h), fun _ _ h => by cases h⟩
  | @cons w w1 w2 l ls h1 h2 ih =>
    have hg1 := quiet_going hg h1
    obtain ⟨r1, k0, k1, k2, k3, k4, k5⟩ := ih hg1 (quiet_told hg ht h1) hr
    obtain ⟨r, j0, j1, j2, j3, j4, j5⟩ := quiet_machines hg ht h1 k0
    have hrec : r' = { r with m := r'.m } := by rw [k1, j1]
    refine ⟨r, j0, hrec, k2.trans j2, Nat.le_trans k3 j3, fun h h8 => ?_, fun s' hs' h hof => ?_⟩
    · rcases List.mem_cons.1 h with h | h
      · exact Nat.lt_of_le_of_lt k3 (j4 (by rw [← h, k2]) h8)
      · exact Nat.lt_of_lt_of_le (k4 h (Nat.le_trans j3 h8)) j3
    · rcases List.mem_cons.1 h with h | h
      · obtain ⟨s1, a0, a1, a2, a3, _⟩ := quiets_sets hg1 h2 hs'
        obtain ⟨s, b0, b1, b2, b3, _⟩ := quiet_sets hg h1 a0
        refine Nat.le_trans k3 (j5 s b0 (by rw [← h, a1, b1]) ⟨?_, ?_⟩)
        · show ⟨s.obj.uid, true⟩ ∈ r.owners
          have : r'.owners = r.owners := by rw [hrec]
          rw [← this, ← b2, ← a2]
          exact hof.1
        · have : r'.labels = r.labels := by rw [hrec]
          rw [← this, ← b3, ← a3]
          exact hof.2
      · exact k5 s' hs' h hof

theorem quiets_set_gone {w w' : Cluster} {ls : List Lab} {n : String} (hg : Going w) (ht : Told w) (hm : w.machines = []) (h : Quiets w ls w') (hn : .set n ∈ ls) :
    ∀ s' ∈ w'.sets, s'.name ≠ n := by
  induction h with
  | nil w => cases hn
  | @cons w w1 w2 l ls h1 h2 ih =>
    have hg1 := quiet_going hg h1
    rcases List.mem_cons.1 hn with h | h
    · subst h
      intro s' hs' hn'
      obtain ⟨s1, a0, a1, _⟩ := quiets_sets hg1 h2 hs'
      exact quiet_set_gone hg ht hm h1 s1 a0 (by rw [← a1]; exact hn')
    · refine ih hg1 (quiet_told hg ht h1) (List.eq_nil_iff_forall_not_mem.2 fun r hr => ?_) h
      obtain ⟨r0, k0, _⟩ := quiet_machines hg ht h1 hr
      rw [hm] at k0; cases k0

theorem quiets_dep_none {w w' : Cluster} {ls : List Lab} (hg : Going w) (hd : w.dep = none) (h : Quiets w ls w') : w'.dep = none := by
  induction h with
  | nil _ => exact hd
  | cons h1 h2 ih => exact ih (quiet_going hg h1) (quiet_dep_none hg hd h1)

theorem quiets_dep_gone {w w' : Cluster} {ls : List Lab} (hg : Going w) (hs : w.sets = []) (h : Quiets w ls w') (hn : .dep ∈ ls) : w'.dep = none := by
  induction h with
  | nil w => cases hn
  | @cons w w1 w2 l ls h1 h2 ih =>
    have hg1 := quiet_going hg h1
    rcases List.mem_cons.1 hn with h | h
    · subst h
      exact quiets_dep_none hg1 (quiet_dep_gone hg hs h1) h2
    · refine ih hg1 (List.eq_nil_iff_forall_not_mem.2 fun s hm => ?_) h
      obtain ⟨s0, k0, _⟩ := quiet_sets hg h1 hm
      rw [hs] at k0; cases k0

/-! ### Epochs -/

theorem epoch_going {w w' : Cluster} (hg : Going w) (h : Epoch w w') : Going w' := by
  obtain ⟨ls, h, _⟩ := h; exact quiets_going hg h

theorem epoch_told {w w' : Cluster} (hg : Going w) (h : Epoch w w') : Told w' := by
  obtain ⟨ls, h, hd, _⟩ := h
  intro s' hs
  obtain ⟨s, _, _, _, _, _, j5⟩ := quiets_sets hg h hs
  exact j5 hd

/-- no machine has more than `b` before it -/
def Within (b : Nat) (w : Cluster) : Prop := ∀ r ∈ w.machines, rank r.m ≤ b

theorem epoch_eight {w w' : Cluster} (hg : Going w) (ht : Told w) (h : Epoch w w') : Within 8 w' := by
  intro r' hr'
  have hg' := epoch_going hg h
  obtain ⟨ls, h, _, hset, _⟩ := h
  obtain ⟨s', hs', _, hof⟩ := hg'.start.machines r' hr'
  obtain ⟨s, j0, j1, _⟩ := quiets_sets hg h hs'
  obtain ⟨_, _, _, _, _, _, k⟩ := quiets_machines hg ht h hr'
  exact k s' hs' (by rw [j1]; exact hset s j0 s' hs' j1.symm) hof

theorem epoch_less {b : Nat} (hb : b + 1 ≤ 8) {w w' : Cluster} (hg : Going w) (ht : Told w) (hw : Within (b + 1) w) (h : Epoch w w') : Within b w' := by
  intro r' hr'
  obtain ⟨ls, h, _, _, hserve⟩ := h
  obtain ⟨r, k0, _, k2, k3, k4, _⟩ := quiets_machines hg ht h hr'
  have h8 : rank r.m ≤ 8 := Nat.le_trans (hw r k0) hb
  have := k4 (by rw [k2]; exact hserve r k0 r' hr' k2.symm (dying_rank h8) (dying_rank (Nat.le_trans k3 h8))) h8
  have := hw r k0
  omega

theorem epochs_within : ∀ (b n : Nat), b ≤ 8 → ∀ {w w' : Cluster}, Going w → Told w → Within b w → Epochs (b + n) w w' →
    ∃ w1, Going w1 ∧ Told w1 ∧ w1.machines = [] ∧ Epochs n w1 w'
  | 0, n, _, w, w', hg, ht, hw, h => by
    rw [Nat.zero_add] at h
    refine ⟨w, hg, ht, List.eq_nil_iff_forall_not_mem.2 fun r hr => ?_, h⟩
    have h1 := hw r hr
    have h2 := rank_pos (hg.ok r hr)
    omega
  | b + 1, n, hb, w, w', hg, ht, hw, h => by
    rw [show b + 1 + n = (b + n) + 1 by omega] at h
    cases h with
    | succ h1 h2 => exact epochs_within b n (by omega) (epoch_going hg h1) (epoch_told hg h1) (epoch_less hb hg ht hw h1) h2

theorem epoch_no_sets {w w' : Cluster} (hg : Going w) (ht : Told w) (hm : w.machines = []) (h : Epoch w w') : w'.sets = [] := by
  obtain ⟨ls, h, _, hset, _⟩ := h
  refine List.eq_nil_iff_forall_not_mem.2 fun s' hs' => ?_
  obtain ⟨s, j0, j1, _⟩ := quiets_sets hg h hs'
  exact quiets_set_gone hg ht hm h (hset s j0 s' hs' j1.symm) s' hs' j1

/-- **C115**: when the deletion of a deployment was requested, then undisturbed – all controllers run for all objects in any order – the deployment, its sets, their machines and the VMs
are all gone after twelve epochs, from any state: with any number of sets and machines, with sets in the middle of making machines, with machines in any phase of creation or termination.
**Partial**: an invalid deployment is never torn down (`C115_invalid_stays_false`). -/
theorem C115_all_go_partial (w w' : Cluster) (hg : Going w) (h : Epochs 12 w w') : w'.dep = none ∧ Nothing w' := by
  cases h with
  | succ h1 h =>
    have g1 := epoch_going hg h1
    have t1 := epoch_told hg h1
    cases h with
    | succ h2 h =>
      have g2 := epoch_going g1 h2
      have t2 := epoch_told g1 h2
      obtain ⟨w3, g3, t3, m3, h⟩ := epochs_within 8 2 (by omega) g2 t2 (epoch_eight g1 t1 h2) h
      cases h with
      | succ h4 h =>
        have g4 := epoch_going g3 h4
        have s4 := epoch_no_sets g3 t3 m3 h4
        cases h with
        | succ h5 h =>
          cases h
          have g5 := epoch_going g4 h5
          obtain ⟨ls, h5, hd, _⟩ := h5
          have hdep := quiets_dep_gone g4 s4 h5 hd
          exact ⟨hdep, (C115_goes_last_partial w' w' g5.start .refl).1 hdep⟩

/-! ### Such epochs can always be made -/

/-- the API server lets an object have one controller only -/
def Single (w : Cluster) : Prop := (∀ s ∈ w.sets, OneController s.seen) ∧ ∀ r ∈ w.machines, OneController r.seen

theorem quiet_single {w w' : Cluster} {l : Lab} (hg : Going w) (hs : Single w) (h : Quiet w l w') (hl : l ≠ .other) : Single w' := by
  have hput : ∀ n g, Single (w.putSet n g) := by
    intro n g
    refine ⟨fun s hm => ?_, hs.2⟩
    obtain ⟨s0, h0, ⟨rfl, _⟩ | ⟨_, _, h3⟩⟩ := mem_putSet hm
    · exact hs.1 _ h0
    · have := hs.1 s0 h0
      rw [h3]; exact this
  have hon : ∀ f, Single (w.onMachines f) := by
    intro f
    refine ⟨hs.1, fun r hm => ?_⟩
    obtain ⟨r0, h0, _, h2⟩ := mem_onMachines hm
    have := hs.2 r0 h0
    rw [h2]; exact this
  cases h with
  | dep c hc hsh =>
    rcases dep_cases hg hc hsh with ⟨_, h⟩ | ⟨_, h⟩ | ⟨l, h, _⟩ <;> rw [h]
    · exact hs
    · exact hs
    · refine ⟨fun s hm => ?_, hs.2⟩
      obtain ⟨s0, h0, ⟨rfl, _⟩ | ⟨_, h3⟩⟩ := mem_dropSets hm
      · exact hs.1 _ h0
      · have := hs.1 s0 h0
        rw [h3]; exact this
  | set n c hc hsh =>
    rcases set_cases hg hc hsh with ⟨hno, h | h⟩ | ⟨s, hm, hn, hd', ⟨h, _⟩ | ⟨l, h, _⟩⟩ <;> rw [h]
    · exact hs
    · exact hput _ _
    · exact hput _ _
    · exact hon _
  | late r e vms t p c tr h1 h2 h3 h4 => exact hon _
  | makeMachine _ _ _ _ _ _ _ _ => exact absurd rfl hl
  | deleteSet n => exact absurd rfl hl
  | killMachine now n => exact absurd rfl hl
  | requestMachine now n => exact absurd rfl hl
  | machine r e vm vms v x h1 h2 h3 h4 => exact absurd rfl hl
  | early n e h1 => exact absurd rfl hl

/-- a run that sees the objects as they are -/
def plain (l : List Claim.Obj) : Call := { cache := some l }

theorem plain_clear (l : List Claim.Obj) : Clear (plain l) := ⟨rfl, rfl, rfl, rfl, rfl, Nat.le_refl _, fun _ => rfl⟩

theorem plain_shows {w : Cluster} (hs : Single w) : ShowsSets w (plain (w.sets.map SetRec.seen)) := by
  refine ⟨_, rfl, fun o ho => ?_, fun s hm => List.mem_map.2 ⟨s, hm, rfl⟩, fun d _ o ho _ => ?_⟩
  · obtain ⟨s, h1, rfl⟩ := List.mem_map.1 ho; exact hs.1 s h1
  · obtain ⟨s, h1, h2⟩ := List.mem_map.1 ho; exact ⟨s, h1, h2⟩

theorem can_dep {w : Cluster} (hs : Single w) : Quiet w .dep (w.depRun (plain (w.sets.map SetRec.seen))) := .dep _ (plain_clear _) (plain_shows hs)

theorem can_set {w : Cluster} (hs : Single w) (n : String) : Quiet w (.set n) (w.setRun n (plain (w.machines.map MachRec.seen))) := by
  refine .set n _ (plain_clear _) ⟨_, rfl, fun o ho => ?_, fun s hm => List.mem_map.2 ⟨s, hm, rfl⟩, fun d _ _ o ho _ => ?_⟩
  · obtain ⟨s, h1, rfl⟩ := List.mem_map.1 ho; exact hs.2 s h1
  · obtain ⟨s, h1, h2⟩ := List.mem_map.1 ho; exact ⟨s, h1, h2⟩

theorem Quiets.append {a b c : Cluster} {l m : List Lab} (h1 : Quiets a l b) (h2 : Quiets b m c) : Quiets a (l ++ m) c := by
  induction h1 with
  | nil _ => exact h2
  | cons h _ ih => exact .cons h (ih h2)

theorem serve_sets (ns : List String) : ∀ w : Cluster, Going w → Single w → ∃ ls w', Quiets w ls w' ∧ Single w' ∧ ∀ n ∈ ns, .set n ∈ ls := by
  induction ns with
  | nil => intro w _ hs; exact ⟨[], w, .nil w, hs, by simp⟩
  | cons n ns ih =>
    intro w hg hs
    have h1 := can_set hs n
    obtain ⟨ls, w', h2, h3, h4⟩ := ih _ (quiet_going hg h1) (quiet_single hg hs h1 (by simp))
    refine ⟨_, w', .cons h1 h2, h3, fun m hm => ?_⟩
    rcases List.mem_cons.1 hm with h | h
    · rw [h]; simp
    · exact List.mem_cons_of_mem _ (h4 m h)

theorem serve_machines (ns : List String) : ∀ w : Cluster, Going w → Single w → Told w → ∃ ls w', Quiets w ls w' ∧ Single w' ∧
    ∀ r ∈ w.machines, r.m.isDying = true → r.m.name ∈ ns → ∀ r' ∈ w'.machines, r'.m.name = r.m.name → .served r.m.name ∈ ls := by
  induction ns with
  | nil => intro w _ hs _; exact ⟨[], w, .nil w, hs, by simp⟩
  | cons n ns ih =>
    intro w hg hs ht
    by_cases hex : ∃ r ∈ w.machines, r.m.name = n ∧ r.m.isDying = true
    · obtain ⟨r, h0, h1, h2⟩ := hex
      cases hm : r.m with
      | live vms v x => rw [hm] at h2; cases h2
      | dying vms t p c tr =>
        have hq : Quiet w (.served t.name) (w.onMachines (Fleet.termRun t.name (Fleet.coopEnv t))) :=
          .late r (Fleet.coopEnv t) vms t p c tr h0 hm (Fleet.coopEnv_coop t) (by show _ < t.st.opTime + Similar.tolerance + 1; omega)
        have hn : t.name = n := by rw [← h1, hm]; rfl
        obtain ⟨ls, w', k1, k2, k3⟩ := ih _ (quiet_going hg hq) (quiet_single hg hs hq (by simp)) (quiet_told hg ht hq)
        refine ⟨_, w', .cons hq k1, k2, fun r2 hr2 hd2 hn2 r' hr' he => ?_⟩
        rcases List.mem_cons.1 hn2 with h | h
        · rw [h, hn]; simp
        · obtain ⟨r1, j0, j1, j2, j3, _⟩ := quiets_machines (quiet_going hg hq) (quiet_told hg ht hq) k1 hr'
          obtain ⟨r3, i0, i1, i2, i3, _⟩ := quiet_machines hg ht hq j0
          have : r3 = r2 := rec_unique hg.names i0 hr2 (by rw [← i2, ← j2, he])
          subst this
          have := k3 r1 j0 (dying_rank (Nat.le_trans i3 (rank_dying hd2))) (by rw [i2]; exact h) r' hr' j2
          rw [i2] at this
          exact List.mem_cons_of_mem _ this
    · obtain ⟨ls, w', k1, k2, k3⟩ := ih w hg hs ht
      refine ⟨ls, w', k1, k2, fun r2 hr2 hd2 hn2 => ?_⟩
      rcases List.mem_cons.1 hn2 with h | h
      · exact absurd ⟨r2, hr2, h, hd2⟩ hex
      · exact k3 r2 hr2 hd2 h

/-- **C115**: the epochs that `C115_all_go_partial` speaks of can be made from every such state. -/
theorem C115_possible (w : Cluster) (hg : Going w) (hs : Single w) (n : Nat) : ∃ w', Epochs n w w' := by
  induction n generalizing w with
  | zero => exact ⟨w, .zero w⟩
  | succ n ih =>
    have q0 := can_dep hs
    have g1 := quiet_going hg q0
    have s1 := quiet_single hg hs q0 (by simp)
    have t1 : Told (w.depRun (plain (w.sets.map SetRec.seen))) := fun s hm => by
      obtain ⟨_, _, _, _, _, _, h⟩ := quiet_sets hg q0 hm; exact h rfl
    have m1 : (w.depRun (plain (w.sets.map SetRec.seen))).machines = w.machines := by
      rcases dep_cases hg (plain_clear _) (plain_shows hs) with ⟨_, h⟩ | ⟨_, h⟩ | ⟨l, h, _⟩ <;> rw [h] <;> rfl
    obtain ⟨l2, w2, q2, s2, c2⟩ := serve_sets (w.sets.map SetRec.name) _ g1 s1
    have g2 := quiets_going g1 q2
    have t2 := quiets_told g1 t1 q2
    obtain ⟨l3, w3, q3, s3, c3⟩ := serve_machines (w2.machines.map fun r => r.m.name) _ g2 s2 t2
    obtain ⟨w', h⟩ := ih w3 (quiets_going g2 q3) s3
    refine ⟨w', .succ ⟨_, .cons q0 (q2.append q3), by simp, fun s hm _ _ _ => ?_, fun r hr r' hr' he hd _ => ?_⟩ h⟩
    · exact List.mem_cons_of_mem _ (List.mem_append.2 (.inl (c2 _ (List.mem_map.2 ⟨s, hm, rfl⟩))))
    · obtain ⟨r2, j0, _, j2, j3, _⟩ := quiets_machines g2 t2 q3 hr'
      obtain ⟨r1, i0, _, i2, i3, _⟩ := quiets_machines g1 t1 q2 j0
      rw [m1] at i0
      have : r1 = r := rec_unique hg.names i0 hr (by rw [← i2, ← j2, he])
      subst this
      have := c3 r2 j0 (dying_rank (Nat.le_trans i3 (rank_dying hd))) (List.mem_map.2 ⟨r2, j0, rfl⟩) r' hr' j2
      rw [i2] at this
      exact List.mem_cons_of_mem _ (List.mem_append.2 (.inr this))

/-! ### A concrete deployment -/

def demoSel (l : SMap) : Bool := l == [("app", "x")]

/-- an old set that is already being deleted, and the new one -/
def demoOld : SetRec := { name := "old", obj := ⟨"u1", true, [finalizerName]⟩, labels := [("app", "x")], owners := [⟨"d", true⟩], sel := demoSel }
def demoNew : SetRec := { name := "new", obj := ⟨"u2", false, [finalizerName]⟩, labels := [("app", "x")], owners := [⟨"d", true⟩], sel := demoSel }

/-- the deployment is being deleted; of the old set a running machine is left, and one that is being deleted; the new set has just made a machine -/
def demo : Cluster :=
  { dep := some ⟨"d", true, [finalizerName]⟩
    sel := demoSel
    sets := [demoOld, demoNew]
    machines := [
      { m := .live [⟨"node-c", "prov:///c"⟩] Fleet.demoC {}, uid := "1", labels := [("app", "x")], owners := [⟨"u1", true⟩] },
      { m := .dying [⟨"node-d", "prov:///d"⟩] Fleet.demoD (some "3") 0 false, uid := "2", labels := [("app", "x")], owners := [⟨"u1", true⟩] },
      { m := .live [] { name := "b" } {}, uid := "3", labels := [("app", "x")], owners := [⟨"u2", true⟩] }] }

theorem ok_fair {m : Fleet.M} (h : Fleet.Ok m) : Recovery.Fair m := by
  cases m with
  | live vms v x =>
    obtain ⟨h1, h2, h3, h4, h5, h6, k, _, h7⟩ := h
    exact ⟨h1, h2, h3, fun hp => absurd hp h4, h5, h6, Recovery.left_clear h7⟩
  | dying vms t p c tr => exact h

theorem demo_ok : ∀ r ∈ demo.machines, Recovery.Fair r.m := by
  intro r hr
  simp only [demo, List.mem_cons, List.not_mem_nil, or_false] at hr
  rcases hr with rfl | rfl | rfl <;> exact ok_fair (Fleet.demo_start.ok _ (by simp [Fleet.demo]))

theorem ok_sound {m : Fleet.M} (h : Recovery.Fair m) : Sound m := by
  cases m with
  | live vms v x => exact ⟨h.2.2.2.2.1, h.2.2.2.1⟩
  | dying vms t p c tr => exact ⟨h.1.fin, h.2⟩

theorem demo_start : Start demo := by
  refine ⟨by decide, fun s hs => ⟨_, rfl, by simp [Held, finalizerName], ?_⟩, fun r hr => ?_, fun r hr => ok_sound (demo_ok r hr), rfl⟩
  · simp only [demo, List.mem_cons, List.not_mem_nil, or_false] at hs
    rcases hs with rfl | rfl
    · exact ⟨by simp [ControlledBy, SetRec.seen, demoOld], by decide⟩
    · exact ⟨by simp [ControlledBy, SetRec.seen, demoNew], by decide⟩
  · simp only [demo, List.mem_cons, List.not_mem_nil, or_false] at hr
    rcases hr with rfl | rfl | rfl
    · exact ⟨demoOld, by simp [demo], by simp [Held, demoOld, finalizerName], by simp [ControlledBy, MachRec.seen, demoOld], by decide⟩
    · exact ⟨demoOld, by simp [demo], by simp [Held, demoOld, finalizerName], by simp [ControlledBy, MachRec.seen, demoOld], by decide⟩
    · exact ⟨demoNew, by simp [demo], by simp [Held, demoNew, finalizerName], by simp [ControlledBy, MachRec.seen, demoNew], by decide⟩

theorem demo_going : Going demo := by
  refine ⟨demo_start, fun d hd => ?_, fun s hs => ?_, demo_ok, by decide⟩
  · cases hd; exact ⟨rfl, by simp [Held, finalizerName], by simp [finalizerName]⟩
  · simp only [demo, List.mem_cons, List.not_mem_nil, or_false] at hs
    rcases hs with rfl | rfl <;> simp [demoOld, demoNew, Held, finalizerName]

theorem demo_single : Single demo := by
  refine ⟨fun s hs => ?_, fun r hr => ?_⟩
  · simp only [demo, List.mem_cons, List.not_mem_nil, or_false] at hs
    rcases hs with rfl | rfl <;> simp [OneController, SetRec.seen, demoOld, demoNew]
  · simp only [demo, List.mem_cons, List.not_mem_nil, or_false] at hr
    rcases hr with rfl | rfl | rfl <;> simp [OneController, MachRec.seen]

/-- all of it goes -/
example : ∃ w', Epochs 12 demo w' ∧ w'.dep = none ∧ Nothing w' := by
  obtain ⟨w', h⟩ := C115_possible demo demo_going demo_single 12
  exact ⟨w', h, C115_all_go_partial demo w' demo_going h⟩

/-- an execution with failures and crashes: the deployment controller crashes after the first write, a machine is deleted by a user, the set's finalizer write is lost -/
example : ∃ w, Reach demo w ∧ w.sets.map SetRec.name = ["old", "new"] ∧ w.machines.map (fun r => r.m.isDying) = [true, true, false] ∧ w.sets.map (fun s => s.obj.deleting) = [true, true] := by
  refine ⟨((demo.depRun { cache := some [demoOld.seen, demoNew.seen], crash := 1 }).setRun "new" { cache := some (demo.machines.map MachRec.seen), lands := false, fate := fun _ => .lost }).onMachines
    (fun m => if m.name = "c" then request 5 m else some m), ?_, by decide, by decide, by decide⟩
  refine .step (.step (.step .refl (.dep _ ?_)) (.set "new" _ ?_)) (.requestMachine 5 "c")
  · intro l hl
    cases hl
    refine ⟨fun o ho => ?_, fun s hs => ⟨s.seen, ?_, rfl, rfl⟩⟩
    · simp only [List.mem_cons, List.not_mem_nil, or_false] at ho
      rcases ho with rfl | rfl <;> simp [OneController, SetRec.seen, demoOld, demoNew]
    simp only [demo, List.mem_cons, List.not_mem_nil, or_false] at hs ⊢
    rcases hs with rfl | rfl
    · exact .inl rfl
    · exact .inr rfl
  · intro l hl
    cases hl
    refine ⟨fun o ho => ?_, fun r hr => ⟨r.seen, List.mem_map.2 ⟨r, hr, rfl⟩, rfl, rfl⟩⟩
    obtain ⟨r, h1, rfl⟩ := List.mem_map.1 ho
    exact demo_single.2 r h1

/-! ## What does not hold -/

/-- A deployment (like a set) that fails validation is never torn down, although all its sets are gone: validation comes before everything else. -/
theorem C115_invalid_stays_false : ∃ w : Cluster, (∃ d, w.dep = some d ∧ d.deleting = true ∧ d.finalizers = [finalizerName]) ∧ Nothing w ∧
    ∀ cs : List Call, (∀ c ∈ cs, c.env.valid = false) → (cs.foldl Cluster.depRun w) = w := by
  refine ⟨{ dep := some ⟨"d", true, [finalizerName]⟩, sel := demoSel }, ⟨_, rfl, rfl, rfl⟩, ⟨rfl, rfl, rfl⟩, fun cs h => ?_⟩
  induction cs with
  | nil => rfl
  | cons c cs ih =>
    have h1 : Cluster.depRun { dep := some ⟨"d", true, [finalizerName]⟩, sel := demoSel } c = { dep := some ⟨"d", true, [finalizerName]⟩, sel := demoSel } := by
      unfold Cluster.depRun
      dsimp only
      rw [show reconcileDeployment ⟨"d", true, [finalizerName]⟩ c.env demoSel c.live c.ans c.cache = [] by
        unfold reconcileDeployment; rw [h c (by simp)]; rfl]
      rw [List.take_nil]
      rfl
    rw [List.foldl_cons, h1]
    exact ih fun c hc => h c (List.mem_cons_of_mem _ hc)

/-- A machine that is not in the cache of the machine set controller (e.g. made by a run a moment ago) is overlooked: the set goes although the machine and its VM are there. -/
theorem C115_missing_in_cache_false : ∃ (w : Cluster) (c : Call), Start w ∧ Clear c ∧ (w.setRun "old" c).sets.map SetRec.name = ["new"] ∧
    (w.setRun "old" c).machines.map (fun r => (r.m.name, r.owners, r.m.isDying)) = [("c", [⟨"u1", true⟩], false), ("d", [⟨"u1", true⟩], true), ("b", [⟨"u2", true⟩], false)] :=
  ⟨demo, plain [], demo_start, plain_clear _, by decide, by decide⟩

/-- A user changes the labels of a machine: the set, being deleted, neither deletes nor releases it, and goes; then the deployment goes, and the machine stays with its VM. -/
theorem C115_relabelled_false : ∃ w : Cluster, Start w ∧ w.machines.map (fun r => r.m.name) = ["c"] ∧
    ∀ w1 w2 : Cluster, w1 = { w with machines := w.machines.map fun r => { r with labels := [("app", "y")] } } →
      w2 = ((w1.setRun "old" (plain (w1.machines.map MachRec.seen))).depRun (plain [])) →
      w2.dep = none ∧ w2.sets.map SetRec.name = [] ∧ w2.machines.map (fun r => (r.m.name, r.m.isDying, r.m.vms.map fun v => v.node)) = [("c", false, ["node-c"])] := by
  refine ⟨{ dep := some ⟨"d", true, [finalizerName]⟩, sel := demoSel, sets := [demoOld]
            machines := [{ m := .live [⟨"node-c", "prov:///c"⟩] Fleet.demoC {}, uid := "1", labels := [("app", "x")], owners := [⟨"u1", true⟩] }] }, ?_, rfl, ?_⟩
  · refine ⟨by decide, fun s hs => ⟨_, rfl, by simp [Held, finalizerName], ?_⟩, fun r hr => ?_, fun r hr => ?_, rfl⟩
    · rw [List.mem_singleton.1 hs]; exact ⟨by simp [ControlledBy, SetRec.seen, demoOld], by decide⟩
    · rw [List.mem_singleton.1 hr]
      exact ⟨demoOld, by simp, by simp [Held, demoOld, finalizerName], by simp [ControlledBy, MachRec.seen, demoOld], by decide⟩
    · rw [List.mem_singleton.1 hr]; exact ok_sound (ok_fair (Fleet.demo_start.ok _ (by simp [Fleet.demo])))
  · rintro w1 w2 rfl rfl
    refine ⟨by decide, by decide, by decide⟩

/-- Adding the finalizer to a deployment fails silently (deployment.go:598-603): the run goes on, and may make a set; when the deployment is deleted then, it goes at once, before its set.
For a machine set the run ends with the failure. -/
theorem C115_unprotected_false : ∃ (w : Cluster) (c : Call) (s : SetRec), c.env.finWriteOk = false ∧ c.lands = false ∧
    (∃ d, w.dep = some d ∧ .others ∈ reconcileDeployment d c.env w.sel c.live c.ans c.cache ∧ .others ∉ reconcileSet d c.env w.sel c.live c.ans c.cache ∧ OfDep w.sel d s) ∧
    ∀ w1 w2 : Cluster, w1 = w.depRun c → w2 = { w1 with sets := w1.sets ++ [s] } → w2.dep.bind doomed = none ∧ w2.sets.map SetRec.name = ["new"] := by
  refine ⟨{ dep := some ⟨"d", false, []⟩, sel := demoSel }, { env := { finWriteOk := false }, lands := false, cache := some [] }, demoNew, rfl, rfl, ⟨_, rfl, by decide, by decide, ?_⟩, ?_⟩
  · exact ⟨by simp [ControlledBy, SetRec.seen, demoNew], by decide⟩
  · rintro w1 w2 rfl rfl
    exact ⟨by decide, by decide⟩

end MCM.Teardown
