import Verif.Props.Teardown
/-!
C117: whatever went wrong before, once the controllers are left undisturbed a deleted machine deployment goes with all its sets, machines and VMs.
-/
namespace MCM.Teardown
open MCM MCM.Claim MCM.Deletion
open MCM.Recovery (Fair)
open MCM.Termination (NameLike)
open MCM.Fleet (M)

/-! ## Specification -/

/-- A deployment with its sets, the machines of these sets in any phase, and their VMs. What is being deleted has a finalizer, whosever it is: otherwise the API server
would have removed it. -/
structure Orderly (w : Cluster) : Prop where
  start : Start w
  dep : ∀ d, w.dep = some d → d.deleting = true → d.finalizers ≠ []
  sets : ∀ s ∈ w.sets, s.obj.deleting = true → s.obj.finalizers ≠ []
  fair : ∀ r ∈ w.machines, Fair r.m
  names : (w.machines.map fun r => r.m.name).Nodup
  single : Single w

/-- One disturbed run of one of the controllers, or something that somebody else does. -/
inductive Rough (w : Cluster) : Cluster → Prop
  /-- the deployment controller: any call may fail, any request may be lost or refused, the run may end anywhere -/
  | dep (c : Call) : SeesSets w c → Rough w (w.depRun c)
  /-- the machine set controller, likewise -/
  | set (n : String) (c : Call) : SeesMachines w c → Rough w (w.setRun n c)
  | makeSet (d : FObj) (s : SetRec) : w.dep = some d → Held d → OfDep w.sel d s → s.name ∉ w.sets.map SetRec.name → s.obj.deleting = false → OneController s.seen →
      Rough w { w with sets := w.sets ++ [s] }
  | makeMachine (s : SetRec) (r : MachRec) : s ∈ w.sets → Held s.obj → OfSet s r → Recovery.Fresh r.m → r.m.name ∉ w.machines.map (fun r => r.m.name) →
      OneController r.seen → Rough w { w with machines := w.machines ++ [r] }
  /-- somebody asks for the deletion of the deployment, or of a set -/
  | deleteDep : Rough w { w with dep := w.dep.bind doomed }
  | deleteSet (n : String) : Rough w (w.putSet n doomed)
  /-- other parties change finalizers, but not the controller's own -/
  | editDep (fs : List String) : Rough w { w with dep := w.dep.bind (edited fs) }
  | editSet (n : String) (fs : List String) : Rough w (w.putSet n (edited fs))
  /-- users and the safety controller do things to machines -/
  | others (now : Int) (deed : M → Fleet.Deed) : Rough w (w.onMachines fun m => (deed m).effect now m)
  /-- the machine controller -/
  | machine (n : String) (e : Lifecycle.Env) (t : Lifecycle.Trouble) (vm : Creation.VM) : Recovery.Honest t → Recovery.ProperVM vm → Recovery.DistinctTypes e →
      Rough w (w.onMachines (Fleet.roughRun n e t vm))
  /-- the termination -/
  | term (n : String) (e : Termination.Env) (landed gone : Bool) : (∀ n, Termination.nodeName e = .ok n → NameLike n) →
      Rough w (w.onMachines (Fleet.roughTerm n e landed gone))

inductive Roughs (w0 : Cluster) : Cluster → Prop
  | refl : Roughs w0 w0
  | step {w w' : Cluster} : Roughs w0 w → Rough w w' → Roughs w0 w'

/-- the deletion of the deployment was requested, and nobody else's finalizers hold it or its sets any more -/
def Released (w : Cluster) : Prop :=
  (∀ d, w.dep = some d → d.deleting = true ∧ ∀ f ∈ d.finalizers, f = "machine.sapcloud.io/machine-controller-manager") ∧
  ∀ s ∈ w.sets, ∀ f ∈ s.obj.finalizers, f = "machine.sapcloud.io/machine-controller-manager"

/-! ## Disturbed steps -/

theorem finWrite_some {o o' : FObj} {fs : List String} (ho : o.deleting = true → o.finalizers ≠ []) (h : applyFinWrite (some o) fs = some o') :
    o'.deleting = true → o'.finalizers ≠ [] := by
  unfold applyFinWrite at h
  dsimp only at h
  split at h
  · cases h; exact ho
  · split at h
    · cases h
    · rename_i hne
      cases h
      intro hd hf
      apply hne
      have hd : o.deleting = true := hd
      have hf : fs = [] := hf
      rw [hd, hf]; rfl

theorem doomed_some {o o' : FObj} (h : doomed o = some o') : o'.deleting = true → o'.finalizers ≠ [] := by
  unfold doomed at h
  split at h
  · cases h
  · rename_i hne
    cases h
    intro _ hf
    apply hne
    have hf : o.finalizers = [] := hf
    rw [hf]; rfl

theorem edited_some {o o' : FObj} {fs : List String} (ho : o.deleting = true → o.finalizers ≠ []) (h : edited fs o = some o') :
    o'.deleting = true → o'.finalizers ≠ [] := by
  unfold edited at h
  split at h
  · exact finWrite_some ho h
  · cases h; exact ho

theorem onMachines_orderly {w : Cluster} (hw : Orderly w) {f : M → Option M}
    (hf : ∀ r ∈ w.machines, (∀ m', f r.m = some m' → m'.name = r.m.name ∧ Fair m') ∧ (f r.m = none → r.m.vms = [])) : Orderly (w.onMachines f) := by
  have hfair : ∀ r ∈ (w.onMachines f).machines, Fair r.m := fun r hr => by
    obtain ⟨r0, h0, h1, _⟩ := mem_onMachines hr
    exact ((hf r0 h0).1 _ h1).2
  refine ⟨⟨hw.start.names, hw.start.sets, fun r hr => ?_, fun r hr => ok_sound (hfair r hr), ?_⟩, hw.dep, hw.sets, hfair, ?_, hw.single.1, fun r hr => ?_⟩
  · obtain ⟨r0, h0, _, h2⟩ := mem_onMachines hr
    obtain ⟨s, k1, k2, k3⟩ := hw.start.machines r0 h0
    exact ⟨s, k1, k2, by rw [h2]; exact k3⟩
  · show w.orphans ++ _ = []
    rw [hw.start.orphans, List.nil_append, List.flatMap_eq_nil_iff]
    intro r hr
    split
    · rename_i h
      exact (hf r hr).2 (by simpa using h)
    · rfl
  · refine List.Nodup.sublist (rec_names fun r hr r' h => ?_) hw.names
    cases hfm : f r.m with
    | none => rw [hfm] at h; cases h
    | some m => rw [hfm] at h; cases h; exact ((hf r hr).1 _ hfm).1
  · obtain ⟨r0, h0, _, h2⟩ := mem_onMachines hr
    have := hw.single.2 r0 h0
    rw [h2]; exact this

/-- what the machine set controller does to a machine of a set that is being deleted -/
theorem drop_fair (c : Call) (l : List Claim.Obj) {m : M} (h : Fair m) :
    (∀ m', dropMachine c l m = some m' → m'.name = m.name ∧ Fair m') ∧ (dropMachine c l m = none → m.vms = []) := by
  have self : (∀ m', some m = some m' → m'.name = m.name ∧ Fair m') ∧ (some m = none → m.vms = []) :=
    ⟨fun m' hk => (by cases hk; exact ⟨rfl, h⟩), fun hk => (by cases hk)⟩
  unfold dropMachine
  split
  · exact self
  · unfold prepare
    split
    · exact self
    · split
      · exact self
      · exact Recovery.deed_fair c.now .announce h
      · cases m with
        | live vms v x => exact Recovery.kill_fair c.now h
        | dying vms t p cc tr => exact Recovery.deed_fair c.now .announce h

/-- sets change -/
theorem sets_orderly {w : Cluster} (hw : Orderly w) {ss : List SetRec} (hst : Start { w with sets := ss })
    (h : ∀ s ∈ ss, (s.obj.deleting = true → s.obj.finalizers ≠ []) ∧ OneController s.seen) : Orderly { w with sets := ss } :=
  ⟨hst, hw.dep, fun s hs => (h s hs).1, hw.fair, hw.names, fun s hs => (h s hs).2, hw.single.2⟩

theorem putSet_orderly {w : Cluster} (hw : Orderly w) {n : String} {g : FObj → Option FObj} (hst : Start (w.putSet n g))
    (hg : ∀ o o', (o.deleting = true → o.finalizers ≠ []) → g o = some o' → o'.deleting = true → o'.finalizers ≠ []) : Orderly (w.putSet n g) := by
  refine sets_orderly hw hst fun s hs => ?_
  obtain ⟨s0, h0, ⟨rfl, _⟩ | ⟨_, h2, h3⟩⟩ := mem_putSet (w := w) (n := n) (g := g) hs
  · exact ⟨hw.sets _ h0, hw.single.1 _ h0⟩
  · refine ⟨hg _ _ (hw.sets s0 h0) h2, ?_⟩
    have := hw.single.1 s0 h0
    rw [h3]; exact this

theorem dep_orderly {w : Cluster} (hw : Orderly w) {d' : Option FObj} (hst : Start { w with dep := d' })
    (h : ∀ o, d' = some o → o.deleting = true → o.finalizers ≠ []) : Orderly { w with dep := d' } :=
  ⟨hst, h, hw.sets, hw.fair, hw.names, hw.single.1, hw.single.2⟩

/-- the writes of a run of the deployment controller -/
theorem depActs_orderly (c : Call) : ∀ (as : List Act) (w : Cluster), Orderly w → (∀ a ∈ as, Removes a → w.sets = []) → Orderly (as.foldl (Cluster.depAct c) w)
  | [], _, hw, _ => hw
  | a :: as, w, hw, hr => by
    rw [List.foldl_cons]
    have hst : Start (Cluster.depAct c w a) := depActs_start c [a] w hw.start fun b hb => hr b (by rw [List.mem_singleton.1 hb]; simp)
    cases a with
    | others => exact depActs_orderly c as w hw fun a ha => hr a (List.mem_cons_of_mem _ ha)
    | terminate deps =>
      refine depActs_orderly c as _ (sets_orderly hw hst fun s hs => ?_) fun a ha h => ?_
      · obtain ⟨s0, h0, ⟨rfl, _⟩ | ⟨h2, h3⟩⟩ := mem_dropSets (w := w) (c := c) (l := deps) hs
        · exact ⟨hw.sets _ h0, hw.single.1 _ h0⟩
        · refine ⟨doomed_some h2, ?_⟩
          have := hw.single.1 s0 h0
          rw [h3]; exact this
      · have := hr a (List.mem_cons_of_mem _ ha) h
        unfold Cluster.depAct Cluster.dropSets
        dsimp only
        rw [this]; rfl
    | writeFinalizers fs =>
      rw [show Cluster.depAct c w (.writeFinalizers fs) = if c.lands then { w with dep := applyFinWrite w.dep fs } else w from rfl] at hst ⊢
      split
      · rename_i hl
        rw [if_pos hl] at hst
        refine depActs_orderly c as _ (dep_orderly hw hst fun o ho => ?_) fun a ha => hr a (List.mem_cons_of_mem _ ha)
        cases hd : w.dep with
        | none => rw [hd] at ho; cases ho
        | some d => rw [hd] at ho; exact finWrite_some (hw.dep d hd) ho
      · exact depActs_orderly c as w hw fun a ha => hr a (List.mem_cons_of_mem _ ha)

/-- the writes of a run of the machine set controller -/
theorem setActs_orderly (n : String) (c : Call) : ∀ (as : List Act) (w : Cluster), Orderly w →
    (∀ a ∈ as, Removes a → ∀ s ∈ w.sets, s.name = n → ∀ r ∈ w.machines, ¬ OfSet s r) → Orderly (as.foldl (Cluster.setAct n c) w)
  | [], _, hw, _ => hw
  | a :: as, w, hw, hr => by
    rw [List.foldl_cons]
    have hst : Start (Cluster.setAct n c w a) := setActs_start n c [a] w hw.start fun b hb => hr b (by rw [List.mem_singleton.1 hb]; simp)
    have hr' : ∀ a ∈ as, Removes a → ∀ s ∈ w.sets, s.name = n → ∀ r ∈ w.machines, ¬ OfSet s r := fun a ha => hr a (List.mem_cons_of_mem _ ha)
    cases a with
    | others => exact setActs_orderly n c as w hw hr'
    | terminate deps =>
      refine setActs_orderly n c as _ (onMachines_orderly hw fun r hr => drop_fair c deps (hw.fair r hr)) fun a ha h s hsm hn r hrm hof => ?_
      obtain ⟨r0, h0, _, h2⟩ := mem_onMachines hrm
      exact hr' a ha h s hsm hn r0 h0 (by rw [h2] at hof; exact hof)
    | writeFinalizers fs =>
      rw [show Cluster.setAct n c w (.writeFinalizers fs) = if c.lands then w.putSet n fun o => applyFinWrite (some o) fs else w from rfl] at hst ⊢
      split
      · rename_i hl
        rw [if_pos hl] at hst
        refine setActs_orderly n c as _ (putSet_orderly hw hst fun o o' => finWrite_some) fun a ha h s hsm hn r hrm hof => ?_
        obtain ⟨s0, h0, ⟨rfl, _⟩ | ⟨h1, h2, h3⟩⟩ := mem_putSet hsm
        · exact hr' a ha h _ h0 hn r hrm hof
        · refine hr' a ha h s0 h0 h1 r hrm ⟨?_, ?_⟩
          · rw [← finWrite h2]; exact hof.1
          · have : s.sel = s0.sel := by rw [h3]
            rw [← this]; exact hof.2
      · exact setActs_orderly n c as w hw hr'

theorem rough_orderly {w w' : Cluster} (hw : Orderly w) (h : Rough w w') : Orderly w' := by
  cases h with
  | dep c hc =>
    unfold Cluster.depRun
    cases hd : w.dep with
    | none => exact hw
    | some d =>
      refine depActs_orderly c _ w hw fun a ha hr => ?_
      exact dep_removes hw.start hc hd ha hr
  | set n c hc =>
    unfold Cluster.setRun
    cases hd : w.sets.find? fun s => s.name == n with
    | none => exact hw
    | some s => exact setActs_orderly n c _ w hw fun a ha hr => set_removes hw.start hc hd ha hr
  | makeSet d s h1 h2 h3 h4 h5 h6 =>
    refine sets_orderly hw (step_start hw.start (.makeSet d s h1 h2 h3 h4)) fun s' hs' => ?_
    rcases List.mem_append.1 hs' with h | h
    · exact ⟨hw.sets s' h, hw.single.1 s' h⟩
    · rw [List.mem_singleton.1 h]; exact ⟨fun hd => by (rw [h5] at hd; cases hd), h6⟩
  | makeMachine s r h1 h2 h3 h4 h5 h6 =>
    have hst : Start { w with machines := w.machines ++ [r] } := step_start hw.start (.makeMachine s r h1 h2 h3 (by
      obtain ⟨v, x, e, hn, _⟩ := h4; exact ⟨v, x, e, hn⟩))
    refine ⟨hst, hw.dep, hw.sets, fun r' hr' => ?_, ?_, hw.single.1, fun r' hr' => ?_⟩
    · rcases List.mem_append.1 hr' with h | h
      · exact hw.fair r' h
      · rw [List.mem_singleton.1 h]; exact Recovery.fresh_fair h4
    · show ((w.machines ++ [r]).map fun r => r.m.name).Nodup
      rw [List.map_append, List.nodup_append]
      refine ⟨hw.names, by simp, fun a ha b hb hab => ?_⟩
      rw [List.map_singleton, List.mem_singleton] at hb
      rw [hab, hb] at ha
      exact h5 ha
    · rcases List.mem_append.1 hr' with h | h
      · exact hw.single.2 r' h
      · rw [List.mem_singleton.1 h]; exact h6
  | deleteDep =>
    refine dep_orderly hw (step_start hw.start .deleteDep) fun o ho => ?_
    cases hd : w.dep with
    | none => rw [hd] at ho; cases ho
    | some d => rw [hd] at ho; exact doomed_some ho
  | deleteSet n => exact putSet_orderly hw (step_start hw.start (.deleteSet n)) fun o o' _ => doomed_some
  | editDep fs =>
    refine dep_orderly hw (step_start hw.start (.editDep fs)) fun o ho => ?_
    cases hd : w.dep with
    | none => rw [hd] at ho; cases ho
    | some d => rw [hd] at ho; exact edited_some (hw.dep d hd) ho
  | editSet n fs => exact putSet_orderly hw (step_start hw.start (.editSet n fs)) fun o o' => edited_some
  | others now deed => exact onMachines_orderly hw fun r hr => Recovery.deed_fair now (deed r.m) (hw.fair r hr)
  | machine n e t vm h1 h2 h3 =>
    refine onMachines_orderly hw fun r hr => ?_
    obtain ⟨m', h4, h5, h6⟩ := Recovery.rough_fair (n := n) (e := e) h1 h2 h3 (hw.fair r hr)
    rw [h4]
    exact ⟨fun m'' hk => (by cases hk; exact ⟨h5, h6⟩), fun hk => (by cases hk)⟩
  | term n e landed gone h1 => exact onMachines_orderly hw fun r hr => Recovery.term_fair h1 (hw.fair r hr)

theorem roughs_orderly {w0 w : Cluster} (h0 : Orderly w0) (h : Roughs w0 w) : Orderly w := by
  induction h with
  | refl => exact h0
  | step _ h ih => exact rough_orderly ih h

theorem only_held {o : FObj} (h1 : o.deleting = true → o.finalizers ≠ []) (h2 : ∀ f ∈ o.finalizers, f = "machine.sapcloud.io/machine-controller-manager")
    (hd : o.deleting = true) : Held o := by
  unfold Held
  cases hf : o.finalizers with
  | nil => exact absurd hf (h1 hd)
  | cons a l => rw [← h2 a (by rw [hf]; simp)]; simp

theorem orderly_going {w : Cluster} (hw : Orderly w) (hr : Released w) : Going w :=
  ⟨hw.start, fun d hd => ⟨(hr.1 d hd).1, only_held (hw.dep d hd) (hr.1 d hd).2 (hr.1 d hd).1, (hr.1 d hd).2⟩,
    fun s hs => ⟨hr.2 s hs, only_held (hw.sets s hs) (hr.2 s hs)⟩, hw.fair, hw.names⟩

/-! ## Theorems -/

/-- **C117**: However many calls fail, requests get lost or are refused, and runs stop half way, in the deployment controller, the machine set controller, the machine controller and the
termination; whoever deletes, edits and resets objects in between; and whether or not a failed call of the provider has made or deleted a VM: at any time there is no machine
without the set it belongs to, no set without the deployment, no VM without its machine, and no second VM for a machine that is not being deleted.
**Partial**: as for C115, the caches must not miss objects that exist (`C115_missing_in_cache_false`), the deployment must have got its finalizer (`C115_unprotected_false`) and
labels must not change (`C115_relabelled_false`); and the provider must implement `GetMachineStatus` (`C116_unimplemented_false`). -/
theorem C117_goes_last_partial (w0 w : Cluster) (h0 : Orderly w0) (h : Roughs w0 w) :
    (w.dep = none → Nothing w) ∧ (∀ s ∈ w.sets, ∃ d, w.dep = some d ∧ OfDep w.sel d s) ∧ (∀ r ∈ w.machines, ∃ s ∈ w.sets, OfSet s r) ∧ w.orphans = [] ∧
    ∀ r ∈ w.machines, r.m.isDying = false → r.m.vms.length ≤ 1 := by
  have hw := roughs_orderly h0 h
  obtain ⟨h1, h2, h3, h4⟩ := C115_goes_last_partial w w hw.start .refl
  refine ⟨h1, h2, h3, h4, fun r hr hd => ?_⟩
  have hf := hw.fair r hr
  cases hm : r.m with
  | dying vms t p c tr => rw [hm] at hd; cases hd
  | live vms v x =>
    rw [hm] at hf
    rcases hf.2.2.2.2.2.2 with h | ⟨y, rfl, _⟩
    · exact h.2.2.1
    · exact Nat.le_refl _

/-- **C117**: and however it has come about: once the deletion of the deployment is requested, nobody else's finalizers are left and the controllers are undisturbed, then after twelve
epochs the deployment, its sets, their machines and the VMs are all gone. **Partial**: an invalid deployment is never torn down (`C115_invalid_stays_false`). -/
theorem C117_recovers_partial (w0 w w' : Cluster) (h0 : Orderly w0) (h : Roughs w0 w) (hr : Released w) (he : Epochs 12 w w') : w'.dep = none ∧ Nothing w' :=
  C115_all_go_partial w w' (orderly_going (roughs_orderly h0 h) hr) he

/-- **C117**: such epochs can be made. -/
theorem C117_possible (w0 w : Cluster) (h0 : Orderly w0) (h : Roughs w0 w) (hr : Released w) (n : Nat) : ∃ w', Epochs n w w' :=
  C115_possible w (orderly_going (roughs_orderly h0 h) hr) (roughs_orderly h0 h).single n

/-! ### A concrete execution -/

/-- the deployment of C115, before its deletion is requested -/
def calm : Cluster := { demo with dep := some ⟨"d", false, [finalizerName]⟩ }

theorem calm_orderly : Orderly calm := by
  have hs := demo_start
  refine ⟨⟨hs.names, fun s hm => ?_, hs.machines, hs.sound, hs.orphans⟩, fun d hd => (by cases hd; simp), fun s hm => ?_, demo_ok, demo_going.names, demo_single.1, demo_single.2⟩
  · obtain ⟨d, h1, h2, h3⟩ := hs.sets s hm
    cases h1
    exact ⟨_, rfl, h2, h3⟩
  · intro hd hf
    have := (demo_going.sets s hm).2 hd
    unfold Held at this
    rw [hf] at this; cases this

/-- A tool puts a finalizer on the deployment, and its deletion is requested. The deletion of machine c is announced, but refused. The machine controller's run for machine b, that gives it a
finalizer, arrives; the next asks for a VM: the call fails, but there is one. The VM of machine d goes, but the termination's write is lost. The tool's finalizer goes. -/
def rough1 : Cluster := { calm with dep := calm.dep.bind (edited [finalizerName, "tool"]) }
def rough2 : Cluster := { rough1 with dep := rough1.dep.bind doomed }
def rough3 : Cluster := rough2.onMachines fun m => (if m.name = "c" then Fleet.Deed.announce else .none).effect 5 m
def rough4 : Cluster := rough3.onMachines (Fleet.roughRun "b" Fleet.goodEnv {} ⟨"node-b", "prov:///b"⟩)
def rough5 : Cluster := rough4.onMachines (Fleet.roughRun "b" Fleet.goodEnv Recovery.demoTrouble ⟨"node-b", "prov:///b"⟩)
def rough6 : Cluster := rough5.onMachines (Fleet.roughTerm "d" (Fleet.coopEnv Fleet.demoD) false true)
def rough7 : Cluster := { rough6 with dep := rough6.dep.bind (edited [finalizerName]) }

theorem rough_reach : Roughs calm rough7 := by
  have hp : Recovery.ProperVM ⟨"node-b", "prov:///b"⟩ := ⟨by decide, by decide, by unfold NameLike; decide⟩
  have h1 : Roughs calm rough1 := .step .refl (.editDep [finalizerName, "tool"])
  have h2 : Roughs calm rough2 := h1.step .deleteDep
  have h3 : Roughs calm rough3 := h2.step (.others 5 fun m => if m.name = "c" then Fleet.Deed.announce else .none)
  have h4 : Roughs calm rough4 := h3.step (.machine "b" Fleet.goodEnv {} _ (fun t h => by rcases h with h | h <;> cases h) hp Recovery.goodEnv_types)
  have h5 : Roughs calm rough5 := h4.step (.machine "b" Fleet.goodEnv Recovery.demoTrouble _ (fun t h => by rcases h with h | h <;> cases h) hp Recovery.goodEnv_types)
  have h6 : Roughs calm rough6 := h5.step (.term "d" _ false true (Fleet.coopEnv_coop _).name)
  exact h6.step (.editDep [finalizerName])

/-- what it has come to: c is called terminating without being deleted, b has a VM that nobody knows, d has none any more and its status does not say so -/
theorem rough7_machines : rough7.machines.map (fun r => (r.m.name, r.m.isDying, r.m.vms.map fun v => v.node)) =
      [("c", false, ["node-c"]), ("d", true, []), ("b", false, ["node-b"])] ∧
    rough7.machines.map (fun r => Recovery.calls r.m) = [true, false, false] ∧ (rough7.dep.map fun d => (d.deleting, d.finalizers)) = some (true, [finalizerName]) := by
  decide +kernel

theorem rough7_released : Released rough7 := by
  have hsets : rough7.sets = [demoOld, demoNew] := rfl
  refine ⟨fun d hd => ?_, fun s hs => ?_⟩
  · have h := rough7_machines.2.2
    rw [hd] at h
    simp only [Option.map_some, Option.some.injEq, Prod.mk.injEq] at h
    refine ⟨h.1, fun f hf => ?_⟩
    rw [h.2] at hf
    exact List.mem_singleton.1 hf
  · rw [hsets] at hs
    simp only [List.mem_cons, List.not_mem_nil, or_false] at hs
    rcases hs with rfl | rfl <;> simp [demoOld, demoNew, finalizerName]

/-- all of it goes -/
example : ∃ w', Epochs 12 rough7 w' ∧ w'.dep = none ∧ Nothing w' := by
  obtain ⟨w', h⟩ := C117_possible calm rough7 calm_orderly rough_reach rough7_released 12
  exact ⟨w', h, C117_recovers_partial calm rough7 w' calm_orderly rough_reach rough7_released h⟩

example : rough7.orphans = [] := (C117_goes_last_partial calm rough7 calm_orderly rough_reach).2.2.2.1

/-- The tool's finalizer must go: as long as it is on the deployment it stays, however often the controllers run. -/
theorem C117_foreign_finalizer_false : ∃ w : Cluster, Orderly w ∧ (∃ d, w.dep = some d ∧ d.deleting = true ∧ d.finalizers = ["tool"]) ∧ Nothing w ∧
    ∀ cs : List Call, (cs.foldl Cluster.depRun w) = w := by
  refine ⟨{ dep := some ⟨"d", true, ["tool"]⟩, sel := demoSel }, ?_, ⟨_, rfl, rfl, rfl⟩, ⟨rfl, rfl, rfl⟩, fun cs => ?_⟩
  · exact ⟨⟨by simp, fun s h => (by cases h), fun s h => (by cases h), fun s h => (by cases h), rfl⟩, fun d hd => (by cases hd; simp), fun s h => (by cases h), fun s h => (by cases h),
      by simp, fun s h => (by cases h), fun s h => (by cases h)⟩
  · induction cs with
    | nil => rfl
    | cons c cs ih =>
      have h1 : Cluster.depRun { dep := some ⟨"d", true, ["tool"]⟩, sel := demoSel } c = { dep := some ⟨"d", true, ["tool"]⟩, sel := demoSel } := by
        unfold Cluster.depRun
        dsimp only
        have hno : ∀ a ∈ reconcileDeployment ⟨"d", true, ["tool"]⟩ c.env demoSel c.live c.ans c.cache, a = .others := by
          intro a ha
          unfold reconcileDeployment at ha
          dsimp only at ha
          split at ha
          · cases ha
          split at ha
          · simpa using ha
          split at ha
          · simp at ha
          · split at ha
            · simp at ha
            split at ha
            · simp at ha
            rw [if_pos rfl, if_pos (by decide)] at ha
            simp at ha
        generalize reconcileDeployment ⟨"d", true, ["tool"]⟩ c.env demoSel c.live c.ans c.cache = as at hno
        have hno' : ∀ a ∈ as.take c.crash, a = .others := fun a ha => hno a (List.mem_of_mem_take ha)
        clear hno
        generalize as.take c.crash = bs at hno'
        induction bs with
        | nil => rfl
        | cons b bs ih =>
          rw [List.foldl_cons, hno' b (by simp)]
          exact ih fun a ha => hno' a (List.mem_cons_of_mem _ ha)
      rw [List.foldl_cons, h1]
      exact ih

end MCM.Teardown
