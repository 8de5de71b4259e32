import Verif.Props.RecreateLive
import Verif.Props.Recovery
/-!
C118: whatever was done to a deployment before, and whatever went wrong with its machines, the controllers bring about what it says now.
-/
namespace MCM.Turmoil
open MCM MCM.Dispatch MCM.Rolling MCM.Template MCM.World
open MCM.Fleet (M)
open MCM.Recovery (calls)

/-! ## Specification -/

/-- somebody gives the set `n` the size `k` -/
def rescaled (w : World) (n : String) (k : Int) : World :=
  { w with sets := w.sets.map fun f => if f.set.name = n then { f with set := { f.set with spec := k }, generation := f.generation + 1 } else f }

/-- Everything that can have happened to a deployment, its sets, their machines and the VMs since it was created. `d` is what the deployment says at the end. -/
inductive Past : FDep → World → Prop
  | created (d : FDep) : Valid d → Past d { sets := [], fleet := fun _ => { ms := [] } }
  /-- an undisturbed run of the machine set controller or the machine controller -/
  | quiet {d : FDep} {w w' : World} {l : Lab} : Past d w → Step d w l w' → (∀ b, l ≠ .deploy b) → Past d w'
  /-- a disturbed run of the machine set controller, the machine controller or the termination, or something that a user or the safety controller does to machines: calls of
  the provider that fail with or without effect, writes that are lost or refused, runs that end anywhere, unhealthy nodes, deletions, edits -/
  | rough {d : FDep} {w : World} {f : FSet} {s' : Fleet.Fleet} : Past d w → f ∈ w.sets → Recovery.Step (w.fleet f.set.name) s' → Past d (w.change f.set.name s')
  /-- statuses of sets are written from whatever the machine set controller sees -/
  | status {d : FDep} {w : World} {sets' : List FSet} : Past d w → Sees w.sets sets' → Past d { w with sets := sets' }
  /-- the deployment controller, on whatever it sees; any of its calls may fail; a pending rollback makes it change the deployment -/
  | run {d : FDep} {w : World} {e : Dispatch.Env} {seen : List FSet} : Past d w → Sees w.sets seen → e.Fine seen → Past (reconcile d e seen).dep (w.deploy d e seen)
  /-- the user edits the deployment, see `History.edit` -/
  | edit {d d' : FDep} {w : World} : Past d w → Valid d' → (d.spec.replicas = 0 → d'.spec.replicas ≠ 0 → ∀ f ∈ w.sets, f.set.spec = 0) → Past d' w
  /-- the user scales a machine set of the deployment; one on which the controller has recorded the limit zero is not scaled up, see `C102_limit_zero_false` -/
  | scale {d : FDep} {w : World} (n : String) (k : Int) : Past d w → 0 ≤ k →
      (d.spec.replicas ≠ 0 → 0 < k → ∀ f ∈ w.sets, f.set.name = n → ∃ m, Scale.RecordedLimit f.set m ∧ 0 < m) → Past d (rescaled w n k)
  /-- the user deletes a machine set of the deployment -/
  | removed {d : FDep} {w : World} (n : String) : Past d w → Past d (w.mark n)
  /-- a run of the machine set controller or the machine controller while a set is frozen, or shown in the cache with another size (`ms` is what the controller has of the set) -/
  | frozen {d : FDep} {w : World} {f : FSet} {ms : MachineSet.MSet} {l : Fleet.Lab} {s' : Fleet.Fleet} : Past d w → f ∈ w.sets → Fleet.Step ms (w.fleet f.set.name) l s' →
      Past d (w.change f.set.name s')
  /-- the deployment adopts a set with its machines, which have a past of their own; the set has a template with a hash label, and a limit that is not zero is recorded on it if
  it is to have machines, see `C102_limit_zero_false` -/
  | adopted {d : FDep} {a b : List FSet} {fleet : String → Fleet.Fleet} {s : Fleet.Fleet} (f : FSet) : Past d { sets := a ++ b, fleet := fleet } →
      (∀ g ∈ a ++ b, g.set.name ≠ f.set.name) → 0 ≤ f.set.spec → 0 ≤ f.set.avail → SetTemplate f.tmpl →
      (d.spec.replicas ≠ 0 → 0 < f.set.spec → ∃ m, Scale.RecordedLimit f.set m ∧ 0 < m) → Recovery.Reach { ms := [] } s →
      Past d (World.change { sets := a ++ f :: b, fleet := fleet } f.set.name s)
  /-- the deployment loses a set, with its machines -/
  | released {d : FDep} {w : World} (n : String) : Past d w → Past d ((w.change n { ms := [] }).drop n)

/-! ## What holds in spite of it -/

/-- what holds of the deployment, its sets and machines -/
structure Kept (d : FDep) (w : World) : Prop extends Shape d w where
  start : ∀ n, Recovery.Start (w.fleet n)

theorem change_start {w : World} (hw : ∀ n, Recovery.Start (w.fleet n)) {n : String} {s' : Fleet.Fleet} (h : Recovery.Start s') : ∀ m, Recovery.Start ((w.change n s').fleet m) := by
  intro m
  unfold World.change
  dsimp only
  split
  · exact h
  · exact hw m

theorem change_shape {d : FDep} {w : World} (hw : Shape d w) {f : FSet} (hf : f ∈ w.sets) (s' : Fleet.Fleet) : Shape d (w.change f.set.name s') := by
  refine ⟨hw.valid, hw.loose, fun n hn => ?_, hw.templates⟩
  unfold World.change
  dsimp only
  rw [if_neg fun h => hn f hf h.symm]; exact hw.none n hn

theorem sees_shape {d : FDep} {w : World} (hw : Shape d w) {sets' : List FSet} (h : Sees w.sets sets') : Shape d { w with sets := sets' } := by
  refine ⟨hw.valid, sees_loose h hw.loose, fun n hn => hw.none n fun g hg he => ?_, agree_templates (sees_agree h) hw.templates⟩
  have : g.set.name ∈ sets'.map (·.set.name) := by rw [sees_names h]; exact List.mem_map.2 ⟨g, hg, rfl⟩
  obtain ⟨y, hy, hyn⟩ := List.mem_map.1 this
  exact hn y hy (by rw [hyn, he])

theorem rescaled_mem {w : World} {n : String} {k : Int} {f : FSet} (h : f ∈ (rescaled w n k).sets) :
    ∃ g ∈ w.sets, g.set.name = f.set.name ∧ f.tmpl = g.tmpl ∧ f.set.avail = g.set.avail ∧ f.set.maxR = g.set.maxR ∧ (f.set.spec = g.set.spec ∨ g.set.name = n ∧ f.set.spec = k) := by
  obtain ⟨g, hg, rfl⟩ := List.mem_map.1 h
  refine ⟨g, hg, ?_⟩
  split
  · rename_i hn; exact ⟨rfl, rfl, rfl, rfl, .inr ⟨hn, rfl⟩⟩
  · exact ⟨rfl, rfl, rfl, rfl, .inl rfl⟩

theorem rescaled_names (w : World) (n : String) (k : Int) : (rescaled w n k).sets.map (·.set.name) = w.sets.map (·.set.name) := by
  unfold rescaled
  dsimp only
  rw [List.map_map]
  refine List.map_congr_left fun f _ => ?_
  rw [Function.comp]
  split <;> rfl

theorem rescaled_shape {d : FDep} {w : World} (hw : Shape d w) {n : String} {k : Int} (h0 : 0 ≤ k)
    (hl : d.spec.replicas ≠ 0 → 0 < k → ∀ f ∈ w.sets, f.set.name = n → ∃ m, Scale.RecordedLimit f.set m ∧ 0 < m) : Shape d (rescaled w n k) := by
  refine ⟨hw.valid, ⟨⟨?_, fun f hf => ?_, fun h => h.elim⟩, fun hr f hf hp => ?_⟩, fun m hm => hw.none m fun g hg he => ?_, fun f hf => ?_⟩
  · show ((rescaled w n k).sets.map (·.set.name)).Nodup
    rw [rescaled_names]; exact hw.loose.base.unique
  · obtain ⟨g, hg, _, _, h3, _, h5⟩ := rescaled_mem hf
    have := hw.loose.base.nonneg g hg
    rcases h5 with h5 | ⟨_, h5⟩ <;> omega
  · obtain ⟨g, hg, h1, _, _, h4, h5⟩ := rescaled_mem hf
    have : ∃ m, Scale.RecordedLimit g.set m ∧ 0 < m := by
      rcases h5 with h5 | ⟨h6, h5⟩
      · exact hw.loose.limits hr g hg (by omega)
      · exact hl hr (by omega) g hg h6
    obtain ⟨m, ⟨t, h6, h7⟩, h8⟩ := this
    exact ⟨m, ⟨t, by rw [h4]; exact h6, h7⟩, h8⟩
  · have : g.set.name ∈ (rescaled w n k).sets.map (·.set.name) := by rw [rescaled_names]; exact List.mem_map.2 ⟨g, hg, rfl⟩
    obtain ⟨y, hy, hyn⟩ := List.mem_map.1 this
    exact hm y hy (by rw [hyn, he])
  · obtain ⟨g, hg, _, h2, _⟩ := rescaled_mem hf
    rw [h2]; exact hw.templates g hg

theorem step_start {d : FDep} {w w' : World} {l : Lab} (hw : ∀ n, Recovery.Start (w.fleet n)) (h : Step d w l w') : ∀ n, Recovery.Start (w'.fleet n) := by
  cases h with
  | machines f l s' hf hst => exact change_start hw (Recovery.quiet_start (hw _) hst)
  | status f hf => exact hw
  | gone f hf _ _ => exact hw
  | poor e seen h1 h2 => exact hw
  | good e h1 _ _ _ _ => exact hw

theorem steps_start {d : FDep} {w w' : World} {ls : List Lab} (hw : ∀ n, Recovery.Start (w.fleet n)) (h : Steps d w ls w') : ∀ n, Recovery.Start (w'.fleet n) := by
  induction h with
  | nil _ => exact hw
  | cons h1 _ ih => exact ih (step_start hw h1)

theorem adopted_shape {d : FDep} {a b : List FSet} {fleet : String → Fleet.Fleet} {s : Fleet.Fleet} {f : FSet} (hw : Shape d { sets := a ++ b, fleet := fleet })
    (h1 : ∀ g ∈ a ++ b, g.set.name ≠ f.set.name) (h2 : 0 ≤ f.set.spec) (h3 : 0 ≤ f.set.avail) (h4 : SetTemplate f.tmpl)
    (h5 : d.spec.replicas ≠ 0 → 0 < f.set.spec → ∃ m, Scale.RecordedLimit f.set m ∧ 0 < m) : Shape d (World.change { sets := a ++ f :: b, fleet := fleet } f.set.name s) := by
  have mem : ∀ {g}, g ∈ a ++ f :: b → g = f ∨ g ∈ a ++ b := by
    intro g hg
    simp only [List.mem_append, List.mem_cons] at hg ⊢
    rcases hg with h | h | h
    · exact .inr (.inl h)
    · exact .inl h
    · exact .inr (.inr h)
  refine ⟨hw.valid, ⟨⟨?_, fun g hg => ?_, fun h => h.elim⟩, fun hr g hg hp => ?_⟩, fun n hn => ?_, fun g hg => ?_⟩
  · have hp : ((a ++ f :: b).map (·.set.name)).Perm ((f :: (a ++ b)).map (·.set.name)) := List.perm_middle.map _
    refine hp.nodup_iff.2 ?_
    rw [List.map_cons, List.nodup_cons]
    refine ⟨fun hm => ?_, hw.loose.base.unique⟩
    obtain ⟨g, hg, he⟩ := List.mem_map.1 hm
    exact h1 g hg he
  · rcases mem hg with rfl | hg
    · exact ⟨h2, h3⟩
    · exact hw.loose.base.nonneg g hg
  · rcases mem hg with rfl | hg
    · exact h5 hr hp
    · exact hw.loose.limits hr g hg hp
  · unfold World.change
    dsimp only
    rw [if_neg fun h => hn f (by unfold World.change; simp) h.symm]
    exact hw.none n fun g hg => hn g (by
      unfold World.change
      dsimp only
      simp only [List.mem_append, List.mem_cons] at hg ⊢
      exact hg.elim .inl fun h => .inr (.inr h))
  · rcases mem hg with rfl | hg
    · exact h4
    · exact hw.templates g hg

theorem released_shape {d : FDep} {w : World} (hw : Shape d w) (n : String) : Shape d ((w.change n { ms := [] }).drop n) := by
  have h : Shape d (w.change n { ms := [] }) := by
    refine ⟨hw.valid, hw.loose, fun m hm => ?_, hw.templates⟩
    unfold World.change
    dsimp only
    split
    · rfl
    · exact hw.none m hm
  exact drop_shape h (by unfold World.change; simp)

theorem Past.kept {d : FDep} {w : World} (h : Past d w) : Kept d w := by
  induction h with
  | created d hv => exact ⟨created_shape hv, fun n => Recovery.empty_start⟩
  | quiet _ hs _ ih => exact ⟨step_shape ih.toShape hs, step_start ih.start hs⟩
  | rough _ hf hs ih => exact ⟨change_shape ih.toShape hf _, change_start ih.start (Recovery.step_start (ih.start _) hs)⟩
  | status _ hs ih => exact ⟨sees_shape ih.toShape hs, ih.start⟩
  | run _ hsee he ih => exact ⟨run_shape ih.toShape hsee he, ih.start⟩
  | edit _ hv hz ih => exact ⟨ih.toShape.change hv hz, ih.start⟩
  | scale n k _ h0 hl ih => exact ⟨rescaled_shape ih.toShape h0 hl, ih.start⟩
  | removed n _ ih => exact ⟨mark_shape ih.toShape n, ih.start⟩
  | frozen _ hf hs ih => exact ⟨change_shape ih.toShape hf _, change_start ih.start (Recovery.quiet_start (ih.start _) hs)⟩
  | adopted f _ h1 h2 h3 h4 h5 h6 ih => exact ⟨adopted_shape ih.toShape h1 h2 h3 h4 h5, change_start (w := { sets := _, fleet := _ }) ih.start (Recovery.reach_start Recovery.empty_start h6)⟩
  | released n _ ih => exact ⟨released_shape ih.toShape n, change_start ih.start Recovery.empty_start⟩

/-- an undisturbed past is one -/
theorem of_history {d : FDep} {w : World} (h : History d w) : Past d w := by
  induction h with
  | created d hv => exact .created d hv
  | step _ hs hl ih => exact ih.quiet hs hl
  | run _ hsee he ih => exact ih.run hsee he
  | edit _ hv hz ih => exact ih.edit hv hz
  | removed n _ ih => exact ih.removed n

/-! ## Machines come right, whatever the sizes of their sets are meanwhile -/

/-- steps of the machines of one set, whose size may change in between -/
inductive Moves : Fleet.Fleet → List Fleet.Lab → Fleet.Fleet → Prop
  | nil (s : Fleet.Fleet) : Moves s [] s
  | cons {ms : MachineSet.MSet} {s s1 s2 : Fleet.Fleet} {l : Fleet.Lab} {ls : List Fleet.Lab} : Fleet.Step ms s l s1 → Moves s1 ls s2 → Moves s (l :: ls) s2

theorem moves_was {s s' : Fleet.Fleet} {ls : List Fleet.Lab} (hs : Recovery.Start s) (h : Moves s ls s') {m' : M} (hm' : m' ∈ s'.ms)
    (hc : calls m' = true) : Recovery.Was s (.served m'.name ∈ ls) m' := by
  induction h with
  | nil _ => exact ⟨m', hm', rfl, hc, fun b => ⟨id, nofun⟩⟩
  | @cons ms s s1 s2 l ls h1 h2 ih =>
    obtain ⟨m1, hm1, a1, a2, a3⟩ := ih (Recovery.quiet_start hs h1) hm'
    obtain ⟨m, hm, b1, b2, b3⟩ := Recovery.step_was hs h1 hm1 a2
    refine ⟨m, hm, b1.trans a1, b2, fun b => ⟨fun h => (a3 b).1 ((b3 b).1 h), fun hserved h => ?_⟩⟩
    rcases List.mem_cons.1 hserved with h' | h'
    · exact (a3 b).1 ((b3 b).2 (by rw [← h', a1]) h)
    · exact (a3 b).2 h' ((b3 (b + 1)).1 h)

/-- what happens to the machines of one set -/
theorem steps_moves {d : FDep} {w w' : World} {ls : List Lab} (h : Steps d w ls w') (n : String) :
    ∃ ls', Moves (w.fleet n) ls' (w'.fleet n) ∧ ∀ l, .machines n l ∈ ls → l ∈ ls' := by
  induction h with
  | nil _ => exact ⟨[], .nil _, fun l hl => by cases hl⟩
  | @cons w w1 w2 l ls h1 _ ih =>
    obtain ⟨ls', i1, i2⟩ := ih
    have same : w1.fleet n = w.fleet n → (∀ k, l ≠ .machines n k) → ∃ ls', Moves (w.fleet n) ls' (w2.fleet n) ∧ ∀ k, .machines n k ∈ l :: ls → k ∈ ls' := by
      intro he hl
      refine ⟨ls', by rw [← he]; exact i1, fun k hk => ?_⟩
      rcases List.mem_cons.1 hk with hk | hk
      · exact absurd hk.symm (hl k)
      · exact i2 k hk
    cases h1 with
    | machines f l s' hf hst =>
      by_cases hn : f.set.name = n
      · subst hn
        rw [show (w.change f.set.name s').fleet f.set.name = s' by unfold World.change; simp] at i1
        refine ⟨l :: ls', .cons hst i1, fun k hk => ?_⟩
        rcases List.mem_cons.1 hk with hk | hk
        · injection hk with _ hk; rw [hk]; simp
        · exact List.mem_cons_of_mem _ (i2 k hk)
      · refine same ?_ fun k hk => ?_
        · unfold World.change
          dsimp only
          rw [if_neg fun h => hn h.symm]
        · injection hk with hk _; exact hn hk
    | status f hf => exact same rfl fun k hk => by cases hk
    | gone f hf h1 h2 => exact same rfl fun k hk => by cases hk
    | poor e seen h1 h2 => exact same rfl fun k hk => by cases hk
    | good e h1 h2 h3 h4 h5 => exact same rfl fun k hk => by cases hk

/-- where there were none, there are none -/
theorem steps_none {d : FDep} {w w' : World} {ls : List Lab} (hw : ∀ n, Recovery.Start (w.fleet n)) (h : Steps d w ls w') {n : String}
    (hb : ∀ m ∈ (w.fleet n).ms, calls m = false) : ∀ m ∈ (w'.fleet n).ms, calls m = false := by
  intro m' hm'
  obtain ⟨ls', i1, _⟩ := steps_moves h n
  cases hc : calls m' with
  | false => rfl
  | true =>
    obtain ⟨m, hm, _, a2, _⟩ := moves_was (hw _) i1 hm' hc
    rw [hb m hm] at a2; cases a2

/-- a set that has been removed had no machines -/
theorem steps_gone {d : FDep} {w w' : World} {ls : List Lab} (hw : ∀ n, Recovery.Start (w.fleet n)) (h : Steps d w ls w') {n : String} (hg : .gone n ∈ ls) :
    ∀ m ∈ (w'.fleet n).ms, calls m = false := by
  induction h with
  | nil _ => cases hg
  | @cons w w1 w2 l ls h1 h2 ih =>
    rcases List.mem_cons.1 hg with rfl | hg
    · refine steps_none (step_start hw h1) h2 ?_
      cases h1 with
      | gone f hf _ h0 =>
        intro m hm
        have : m ∈ (w.fleet f.set.name).ms := hm
        rw [h0] at this; cases this
    · exact ih (step_start hw h1) hg

theorem epochs_kept {d : FDep} {w w' : World} {n : Nat} (hw : Kept d w) (h : Epochs d n w w') : Kept d w' := by
  induction h with
  | zero _ => exact hw
  | succ h1 _ ih => obtain ⟨ls, h1, _⟩ := h1; exact ih ⟨steps_shape hw.toShape h1, steps_start hw.start h1⟩

/-- machines of a set that are called terminating without being deleted are fewer epochs from being served -/
theorem epochs_within {d : FDep} {k b : Nat} {w w' : World} (hw : Kept d w) (h : Epochs d k w w') {n : String}
    (hb : ∀ m ∈ (w.fleet n).ms, calls m = true → Fleet.Within m (b + k)) : ∀ m ∈ (w'.fleet n).ms, calls m = true → Fleet.Within m b := by
  induction h with
  | zero _ => exact hb
  | @succ k w w1 w2 h1 _ ih =>
    obtain ⟨ls, h1, _, h3⟩ := h1
    refine ih ⟨steps_shape hw.toShape h1, steps_start hw.start h1⟩ fun m' hm' hc => ?_
    by_cases hn : ∃ f ∈ w.sets, f.set.name = n
    case neg =>
      have hnone := steps_none hw.start h1 (n := n) (by rw [hw.none n fun f hf he => hn ⟨f, hf, he⟩]; simp) m' hm'
      rw [hc] at hnone; cases hnone
    obtain ⟨f, hf, rfl⟩ := hn
    rcases h3 f hf with hgone | ⟨_, _, _, hserved⟩
    · rw [steps_gone hw.start h1 hgone m' hm'] at hc; cases hc
    obtain ⟨ls', i1, i2⟩ := steps_moves h1 f.set.name
    obtain ⟨m, hm, a1, a2, a3⟩ := moves_was (hw.start _) i1 hm' hc
    refine (a3 (b + k)).2 ?_ (hb m hm a2)
    rw [← a1]
    refine i2 _ (hserved m hm m' hm' a1 ?_)
    obtain ⟨_, _, _, rfl, _⟩ := Recovery.calls_live a2
    obtain ⟨_, _, _, rfl, _⟩ := Recovery.calls_live hc
    rfl

/-- after four epochs the machines are in order -/
theorem four_epochs {d : FDep} {w w' : World} (hw : Kept d w) (h : Epochs d 4 w w') : ∀ n, Fleet.Start (w'.fleet n) := by
  intro n
  refine Recovery.start_of ((epochs_kept hw h).start n) ?_
  have hb := epochs_within (b := 0) hw h (n := n) fun m hm hc => by
    obtain ⟨vms, v, x, rfl, _⟩ := Recovery.calls_live hc
    exact Recovery.clear_left ((hw.start n).fair _ hm).2.2.2.2.2.2
  intro m hm
  cases hc : calls m with
  | false => rfl
  | true =>
    have hw := hb m hm hc
    obtain ⟨vms, v, x, rfl, hp⟩ := Recovery.calls_live hc
    obtain ⟨k, hk, hl⟩ := hw
    cases hl with
    | running _ hr => rw [hp] at hr; cases hr
    | _ => omega

/-- and they stay so -/
theorem some_epochs {d : FDep} {w w' : World} (hw : Kept d w) {n : Nat} (hn : 4 ≤ n) (h : Epochs d n w w') : Open d w' := by
  obtain ⟨m, rfl⟩ : ∃ m, n = 4 + m := ⟨n - 4, by omega⟩
  obtain ⟨w1, h1, h2⟩ := h.split
  exact epochs_open ⟨(epochs_kept hw h1).toShape, four_epochs hw h1⟩ h2

theorem sound_step {d : FDep} (hd : Rolls d) (hsel : d.selectsAll = false) (hsu : (scaledValue d.spec.maxSurge d.spec.replicas true).isSome = true) {w w' : World}
    (hw : Kept d w) (hfr : Fresh d w.sets) {n : Nat} (hn : 3 * w.sets.length + 6 ≤ n) (h : Epochs d n w w') : Ready d w' := by
  obtain ⟨a, b, c⟩ := taken_up_shape hd hsel hsu (w.sets.length + 1) hw.toShape hfr (room_le _ _) (by omega) h
  exact a.ready b (some_epochs hw (by omega) h).start c

/-! ## Theorems -/

/-- **C118**: At no time, whatever goes wrong and whoever interferes, does a machine that is not being deleted have two VMs, is there a VM without its machine, or two machines of a set
with the same name. **Partial**: the provider must implement `GetMachineStatus` (`C116_unimplemented_false`), and creation and termination of a machine must not
overlap (`C61_vm_left_behind_false`). -/
theorem C118_no_vm_lost_partial (d : FDep) (w : World) (h : Past d w) (n : String) :
    (w.fleet n).orphans = [] ∧ ((w.fleet n).ms.map M.name).Nodup ∧ ∀ m ∈ (w.fleet n).ms, m.isDying = false → m.vms.length ≤ 1 := by
  have hs := h.kept.start n
  refine ⟨hs.orphans, hs.names, fun m hm hd => ?_⟩
  have hf := hs.fair m hm
  cases m with
  | dying vms t p c tr => cases hd
  | live vms v x =>
    rcases hf.2.2.2.2.2.2 with h | ⟨y, rfl, _⟩
    · exact h.2.2.1
    · exact Nat.le_refl _

/-- **C118**: After any past – edits of anything at any moment, sets scaled or deleted by hand, failing and lost calls of every controller, crashes anywhere, unhealthy nodes, machines
deleted, created or edited by users, wrong and stale statuses – a deployment that now asks for a rolling update, whose current machine set is not being deleted, and that is left
alone comes to what it asks for: three epochs for every set there is later everything is in order, and after as many more as the population requires, there are exactly
`replicas` machines, all of the current template, all Running with one VM each, and no other machine or VM. **Partial**: as for C116; and a deployment of size zero is not
scaled up while it has machines (`C102_limit_zero_false`). -/
theorem C118_after_any_past_partial (d : FDep) (w : World) (hh : Past d w) (hd : Rolls d) (hsel : d.selectsAll = false) (surge unav : Int)
    (hsu : scaledValue d.spec.maxSurge d.spec.replicas true = some surge) (hun : scaledValue d.spec.maxUnavailable d.spec.replicas false = some unav) (h0 : 0 ≤ surge)
    (h1 : 0 ≤ unav) (hfr : ∀ f ∈ w.sets, SameTemplate f.tmpl d.template → f.deleting = false) (w1 w2 : World) (m : Nat) (hm : 3 * w.sets.length + 6 ≤ m) (hw : Epochs d m w w1)
    (k n : Nat) (hk : World.Within k d w1) (hn : ((wanted w1.sets + d.spec.replicas).toNat + 3 * w1.sets.length + 6) * (k + 11) ≤ n) (h : Epochs d n w1 w2) : RolledOut d w2 :=
  C101_rollout_ends d hd hsel surge unav hsu hun h0 h1 w1 w2 (sound_step hd hsel (by rw [hsu]; rfl) hh.kept (hh.kept.toShape.fresh hfr) hm hw) k n hk hn h

/-- **C118**: In every fair execution after any past – also when the set of the current template is being deleted –, the time comes from which on the rollout is complete. -/
theorem C118_eventually_partial (d : FDep) (s : Nat → World) (hh : Past d (s 0)) (hd : Rolls d) (hsel : d.selectsAll = false) (surge unav : Int)
    (hsu : scaledValue d.spec.maxSurge d.spec.replicas true = some surge) (hun : scaledValue d.spec.maxUnavailable d.spec.replicas false = some unav) (h0 : 0 ≤ surge)
    (h1 : 0 ≤ unav) (hs : ∀ i, Epoch d (s i) (s (i + 1))) : ∃ n, ∀ j, n ≤ j → ∀ ls w', Steps d (s j) ls w' → RolledOut d w' :=
  eventually_of hd hsel hsu hun h0 h1 hs (i := 4) (by
    have := Goes.epochs hs 4 0
    exact some_epochs hh.kept (Nat.le_refl _) this)

/-- **C118**: such executions exist after any past. -/
theorem C118_possible (d : FDep) (w : World) (hh : Past d w) : ∃ s : Nat → World, s 0 = w ∧ ∀ i, Epoch d (s i) (s (i + 1)) :=
  goes_of (P := Kept d) (fun w hw => by
    obtain ⟨w1, h1⟩ := epoch_made d (S := Recovery.Start) (fun ms s hs => by
      obtain ⟨s', h⟩ := Recovery.C116_possible ms s s hs .refl 1
      cases h with
      | succ h h0 => cases h0; exact ⟨s', h, by obtain ⟨ls, h1, _⟩ := h; exact Recovery.quiets_start hs h1⟩) hw.loose.base.unique hw.start
    exact ⟨w1, h1, epochs_kept hw (.succ h1 (.zero w1))⟩) hh.kept

/-! ### Recreate -/

/-- **C118**: the same for a deployment with the strategy Recreate, provided that no scaling request is pending while several sets want machines (`C103_two_sets_stuck_false`). -/
theorem C118_recreate_partial (d : FDep) (w w1 w2 w3 : World) (hh : Past d w) (hd : Plain d) (hr : d.spec.strategy = .recreate) (hsel : d.selectsAll = false)
    (hone : Single d w.sets) (hfr : ∀ f ∈ w.sets, SameTemplate f.tmpl d.template → f.deleting = false) (hw : Epochs d 4 w w1) (k n : Nat) (hk : World.Within k d w1)
    (hn : (5 * w1.sets.length + 8) * (k + 11) ≤ n) (h : Epochs d n w1 w2) (ls : List Lab) (h' : Steps d w2 ls w3) : RolledOut d w3 := by
  have D := recreate_drives hd hr hsel
  have hap : Apart d w1 := ⟨some_epochs hh.kept (Nat.le_refl _) hw, single_epochs hd hr hh.kept.toShape hone hw, (epochs_room hd hh.kept.toShape (hh.kept.toShape.fresh hfr) hw).1⟩
  obtain ⟨a, b, c⟩ := ends D hap hk (recreate_measure d w1.sets) hn h
  obtain ⟨x, y, z⟩ := end_steps D a b c h'
  exact x.rolledOut y z

/-- **C118**: and in every fair execution after any past, also when the set of the current template is being deleted. -/
theorem C118_recreate_eventually_partial (d : FDep) (s : Nat → World) (hh : Past d (s 0)) (hd : Plain d) (hr : d.spec.strategy = .recreate) (hsel : d.selectsAll = false)
    (hone : Single d (s 0).sets) (hs : ∀ i, Epoch d (s i) (s (i + 1))) : ∃ n, ∀ j, n ≤ j → ∀ ls w', Steps d (s j) ls w' → RolledOut d w' := by
  have h4 := Goes.epochs hs 4 0
  exact recreate_eventually hd hr hsel hs (i := 4) (some_epochs hh.kept (Nat.le_refl _) h4) (single_epochs hd hr hh.kept.toShape hone h4)

/-! ### A concrete past -/

theorem Past.roughs {d : FDep} {w : World} (h : Past d w) {f : FSet} (hf : f ∈ w.sets) {s : Fleet.Fleet} (hr : Recovery.Reach (w.fleet f.set.name) s) :
    Past d (w.change f.set.name s) := by
  induction hr with
  | refl => rw [change_same]; exact h
  | @step s s' _ hs ih =>
    have := ih.rough (f := f) hf (s' := s') (by unfold World.change; simpa using hs)
    rw [change_change] at this
    exact this

/-- There are ten machines of the template v1 to be, and ten of the template v2 (`z2`). A VM of the first set was created by a call that failed, and its machine is called terminating
without being deleted (`Recovery.demo4`); a user has scaled the second set to 25. -/
def messy : World := rescaled (z2.change "a" Recovery.demo4) "b" 25

theorem messy_past : Past (zDep 10 "v2") messy := by
  have h1 := of_history z2_history
  have hs : specs z2.sets = [("a", 10), ("b", 10)] := by decide +kernel
  have hm : ("a", (10 : Int)) ∈ specs z2.sets := by rw [hs]; simp
  obtain ⟨f, hf, hfn⟩ := List.mem_map.1 hm
  injection hfn with hfn _
  have h2 := h1.roughs hf (s := Recovery.demo4) (by
    have : z2.fleet f.set.name = { ms := [] } := rfl
    rw [this]; exact Recovery.demo_reach)
  rw [hfn] at h2
  refine h2.scale "b" 25 (by decide) fun _ _ g hg hgn => ?_
  have hk : ∀ g ∈ z2.sets, g.set.name = "b" → (g.set.maxR.bind atoi).any (fun m => decide (0 < m)) = true := by decide +kernel
  have := hk g hg hgn
  obtain ⟨m, hm1, hm2⟩ : ∃ m, g.set.maxR.bind atoi = some m ∧ 0 < m := by
    cases h : g.set.maxR.bind atoi with
    | none => rw [h] at this; cases this
    | some m => rw [h] at this; exact ⟨m, rfl, by simpa using this⟩
  cases ht : g.set.maxR with
  | none => rw [ht] at hm1; cases hm1
  | some t => rw [ht] at hm1; exact ⟨m, ⟨t, ht, hm1⟩, hm2⟩

example : specs messy.sets = [("a", 10), ("b", 25)] ∧ (messy.fleet "a").ms.map (fun m => (m.name, m.vms.length, calls m)) = [("a", 1, true)] := by decide +kernel

/-- a set from elsewhere, of another template, that is to have seven machines -/
def foreign : FSet :=
  { set := { name := "c", spec := 7, maxR := some "11" }, tmpl := { labels := [("machine-template-hash", "x"), ("app", "other")] } }

/-- it has come to the deployment, with the machine of `Recovery.demo4` -/
def grown : World := World.change { sets := messy.sets ++ foreign :: [], fleet := messy.fleet } foreign.set.name Recovery.demo4

theorem grown_past : Past (zDep 10 "v2") grown := by
  have hv : NoEmptyValue foreign.tmpl.labels := fun k v h => by
    have h' : List.lookup k [("machine-template-hash", "x"), ("app", "other")] = some v := h
    have hm : ∀ (l : SMap), List.lookup k l = some v → v ∈ l.map Prod.snd := by
      intro l
      induction l with
      | nil => intro h; cases h
      | cons a l ih =>
        intro h
        rw [List.lookup_cons] at h
        split at h
        · rw [← Option.some.inj h]; simp
        · exact List.mem_cons_of_mem _ (ih h)
    have := hm _ h'
    simp only [List.map_cons, List.map_nil, List.mem_cons, List.not_mem_nil, or_false] at this
    rcases this with rfl | rfl <;> decide
  refine .adopted (a := messy.sets) (b := []) (fleet := messy.fleet) foreign (by rw [List.append_nil]; exact messy_past) (fun g hg hn => ?_) (by decide) (by decide)
    ⟨show List.Nodup ["machine-template-hash", "app"] by decide, by decide, hv⟩ (fun _ _ => ⟨11, ⟨"11", rfl, by decide +kernel⟩, by decide⟩) Recovery.demo_reach
  have : ∀ g ∈ messy.sets ++ [], g.set.name ≠ foreign.set.name := by decide +kernel
  exact this g hg hn

/-- it comes to ten machines of the template v2, even if the two sets are then deleted -/
example : ∃ n w', Epochs (zDep 10 "v2") n ((messy.mark "a").mark "b") w' ∧ RolledOut (zDep 10 "v2") w' := by
  obtain ⟨s, e0, hs⟩ := C118_possible _ _ ((messy_past.removed "a").removed "b")
  obtain ⟨n, hn⟩ := C118_eventually_partial (zDep 10 "v2") s (by rw [e0]; exact (messy_past.removed "a").removed "b") ⟨⟨rfl, rfl, rfl, by decide, List.nodup_nil, List.nodup_nil⟩, rfl⟩
    rfl 10 0 (by decide +kernel) (by decide +kernel) (by decide) (by decide) hs
  have := Goes.epochs hs n 0
  rw [e0, Nat.zero_add] at this
  exact ⟨n, s n, this, hn n (Nat.le_refl _) [] _ (.nil _)⟩

/-- and even if it adopts a set meanwhile and the set of the first template leaves -/
example : ∃ n w', Epochs (zDep 10 "v2") n ((grown.change "a" { ms := [] }).drop "a") w' ∧ RolledOut (zDep 10 "v2") w' := by
  obtain ⟨s, e0, hs⟩ := C118_possible _ _ (grown_past.released "a")
  obtain ⟨n, hn⟩ := C118_eventually_partial (zDep 10 "v2") s (by rw [e0]; exact grown_past.released "a") ⟨⟨rfl, rfl, rfl, by decide, List.nodup_nil, List.nodup_nil⟩, rfl⟩
    rfl 10 0 (by decide +kernel) (by decide +kernel) (by decide) (by decide) hs
  have := Goes.epochs hs n 0
  rw [e0, Nat.zero_add] at this
  exact ⟨n, s n, this, hn n (Nat.le_refl _) [] _ (.nil _)⟩

/-- **C118**: The condition on adopted sets is needed. A paused deployment of three machines that has just been created (its status says zero) finds two sets of five machines without
a recorded limit. It scales them down in proportion, dividing by the zero of its status; where the conversion of the infinity gives the largest number (`junk`, see
`C102_limit_zero_false`) one of the sets is to have 2147483647 machines. -/
theorem C118_adopted_without_limit_false : ∃ (d : FDep) (l : List FSet) (e : Dispatch.Env), Valid d ∧ d.spec.replicas = 3 ∧ d.paused = true ∧ Dispatch.Unique l ∧
    (∀ f ∈ l, f.set.spec = 5 ∧ f.set.maxR = none) ∧ e.Fine l ∧ e.Smooth ∧ ∃ f ∈ (reconcile d e l).sets, f.set.spec = 2147483647 := by
  let f (n : String) : FSet := { set := { name := n, spec := 5, avail := 5 }, status := 5, tmpl := { labels := [("machine-template-hash", n)], body := n } }
  refine ⟨{ zDep 3 "v1" with paused := true }, [f "a", f "b"], { fresh := "d", hash := "4", scale := { srtSize := List.reverse, junk := 2147483647 } },
    ⟨rfl, ⟨by decide, by decide⟩, ⟨by decide, by decide⟩, List.nodup_nil, List.nodup_nil, rfl, fun k v h => by cases h⟩, rfl, rfl, show List.Nodup ["a", "b"] by decide, by decide +kernel, fine_of _ _ rfl rfl rfl (.inr rfl) (by decide +kernel) rfl (show ("4" : String) ≠ "" by decide), ?_, by decide +kernel⟩
  · refine ⟨rfl, rfl, rfl, rfl, rfl, ⟨fun l => List.Perm.refl l, fun l => List.reverse_perm l⟩, fun _ => rfl⟩

end MCM.Turmoil
