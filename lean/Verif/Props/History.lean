import Verif.Props.World
import Verif.Lemmas.Rescale
/-!
C102: whatever was done to a deployment before – templates and sizes changed in the middle of rollouts, strategies changed, pauses, rollbacks – the controllers bring about
what it says now.
-/
namespace MCM.World
open MCM MCM.Dispatch MCM.Rolling MCM.Template

/-! ### What can have happened -/

/-- Everything that can have happened to a deployment and its sets and machines since it was created: steps of the machine set controller and the machine controller, runs
of the deployment controller on what it sees, and edits by the user. `d` is what the deployment says at the end. -/
inductive History : FDep → World → Prop
  | created (d : FDep) : Valid d → History d { sets := [], fleet := fun _ => { ms := [] } }
  /-- the machine set controller or the machine controller -/
  | step {d : FDep} {w w' : World} {l : Lab} : History d w → Step d w l w' → (∀ b, l ≠ .deploy b) → History d w'
  /-- the deployment controller; a pending rollback makes it change the deployment -/
  | run {d : FDep} {w : World} {e : Dispatch.Env} {seen : List FSet} : History d w → Sees w.sets seen → e.Fine seen → History (reconcile d e seen).dep (w.deploy d e seen)
  /-- the user: another template, other sizes, another strategy, a pause, a request to roll back, other annotations, any of them at once. One exception: a deployment that
  was scaled to zero is not scaled up before its sets are of size zero; `C102_limit_zero_false` shows why. -/
  | edit {d d' : FDep} {w : World} : History d w → Valid d' → (d.spec.replicas = 0 → d'.spec.replicas ≠ 0 → ∀ f ∈ w.sets, f.set.spec = 0) → History d' w
  /-- the user deletes a machine set of the deployment -/
  | removed {d : FDep} {w : World} (n : String) : History d w → History d (w.mark n)

/-! ### What holds in spite of it -/

/-- what holds of the deployment and its sets at any time -/
structure Shape (d : FDep) (w : World) : Prop where
  valid : Valid d
  loose : Loose d w.sets
  none : ∀ n, (∀ f ∈ w.sets, f.set.name ≠ n) → (w.fleet n).ms = []
  templates : ∀ f ∈ w.sets, SetTemplate f.tmpl

/-- what holds at any time -/
structure Open (d : FDep) (w : World) : Prop extends Shape d w where
  start : ∀ n, Fleet.Start (w.fleet n)

theorem agree_templates {l l' : List FSet} (h : List.Forall₂ Agree l l') (ht : ∀ f ∈ l, SetTemplate f.tmpl) : ∀ f ∈ l', SetTemplate f.tmpl := by
  intro f hf
  obtain ⟨a, ha, hr⟩ := mem_forall2 h f hf
  exact (ht a ha).congr (agree_body hr).1

theorem sees_avail {l seen : List FSet} (h : Sees l seen) : ∀ f ∈ seen, 0 ≤ f.set.avail :=
  fun f hf => by obtain ⟨a, _, hr⟩ := mem_forall2 h f hf; exact hr.2

theorem sees_loose {d : FDep} {l seen : List FSet} (h : Sees l seen) (hl : Loose d l) : Loose d seen := agree_loose (sees_agree h) hl (sees_avail h)

theorem deploy_shape {d : FDep} {w : World} (hw : Shape d w) {e : Dispatch.Env} {seen : List FSet} (h : Sees w.sets seen) (he : e.Fine seen) : Shape d (w.deploy d e seen) := by
  have hl := sees_loose h hw.loose
  have hr := reconcile_any hw.valid he hl
  refine ⟨hw.valid, agree_loose (restore_agree _ _) hr (restore_avail hw.loose.base hr.base), fun n hn => hw.none n fun f hf hfn => ?_,
    agree_templates (restore_agree _ _) (reconcile_templates hw.valid he hl.base.unique (agree_templates (sees_agree h) hw.templates))⟩
  obtain ⟨f', hf', hn'⟩ := deploy_names hw.valid.alive hw.loose.base (e := e) h f hf
  exact hn f' hf' (by rw [hn', hfn])

theorem drop_shape {d : FDep} {w : World} (hw : Shape d w) {n : String} (h0 : (w.fleet n).ms = []) : Shape d (w.drop n) :=
  ⟨hw.valid, ⟨drop_sound hw.loose.base n, fun hr f hf => hw.loose.limits hr f (mem_others.1 hf).1⟩, drop_none hw.none h0, fun f hf => hw.templates f (mem_others.1 hf).1⟩

theorem mark_agree (w : World) (n : String) : List.Forall₂ Agree w.sets (w.mark n).sets :=
  forall2_map _ _ fun f _ => by
    split
    · exact ⟨rfl, rfl, rfl, rfl, rfl, rfl, rfl⟩
    · exact (Still.refl f).toAgree

theorem mark_avail {w : World} {n : String} : ∀ f ∈ (w.mark n).sets, ∃ g ∈ w.sets, f.set = g.set := by
  intro f hf
  obtain ⟨g, hg, rfl⟩ := List.mem_map.1 hf
  refine ⟨g, hg, ?_⟩
  split <;> rfl

theorem mark_shape {d : FDep} {w : World} (hw : Shape d w) (n : String) : Shape d (w.mark n) := by
  refine ⟨hw.valid, agree_loose (mark_agree w n) hw.loose fun f hf => ?_, fun m hm => hw.none m fun g hg he => ?_, agree_templates (mark_agree w n) hw.templates⟩
  · obtain ⟨g, hg, he⟩ := mark_avail f hf
    rw [he]; exact (hw.loose.base.nonneg g hg).2
  · have : g.set.name ∈ (w.mark n).sets.map (·.set.name) := by
      rw [map_forall2 (g := fun f => f.set.name) (fun a b hr => hr.name) (mark_agree w n)]; exact List.mem_map.2 ⟨g, hg, rfl⟩
    obtain ⟨y, hy, hyn⟩ := List.mem_map.1 this
    exact hm y hy (by rw [hyn, he])

theorem step_shape {d : FDep} {w w' : World} {l : Lab} (hw : Shape d w) (h : Step d w l w') : Shape d w' := by
  cases h with
  | machines f l s' hf hst =>
    refine ⟨hw.valid, hw.loose, fun n hn => ?_, hw.templates⟩
    unfold World.change
    dsimp only
    rw [if_neg fun h => hn f hf h.symm]; exact hw.none n hn
  | status f hf =>
    refine ⟨hw.valid, agree_loose (report_agree w f.set.name) hw.loose (report_avail hw.loose.base _), fun n hn => hw.none n fun g hg he => ?_,
      agree_templates (report_agree w f.set.name) hw.templates⟩
    have : g.set.name ∈ (w.report f.set.name).sets.map (·.set.name) := by
      rw [map_forall2 (g := fun f => f.set.name) (fun a b hr => hr.name) (report_agree w f.set.name)]; exact List.mem_map.2 ⟨g, hg, rfl⟩
    obtain ⟨y, hy, hyn⟩ := List.mem_map.1 this
    exact hn y hy (by rw [hyn, he])
  | gone f hf h1 h2 => exact drop_shape hw h2
  | poor e seen h1 h2 => exact deploy_shape hw h1 h2
  | good e h1 _ _ _ _ => exact deploy_shape hw (sees_refl hw.loose.base) h1

theorem steps_shape {d : FDep} {w w' : World} {ls : List Lab} (hw : Shape d w) (h : Steps d w ls w') : Shape d w' := by
  induction h with
  | nil _ => exact hw
  | cons h1 _ ih => exact ih (step_shape hw h1)

theorem step_open {d : FDep} {w w' : World} {l : Lab} (hw : Open d w) (h : Step d w l w') : Open d w' := by
  refine ⟨step_shape hw.toShape h, ?_⟩
  cases h with
  | machines f l s' hf hst => exact Start.change hw.start (Fleet.step_start (hw.start _) hst)
  | status f hf => exact hw.start
  | gone f hf _ _ => exact hw.start
  | poor e seen h1 h2 => exact hw.start
  | good e h1 _ _ _ _ => exact hw.start

theorem steps_open {d : FDep} {w w' : World} {ls : List Lab} (hw : Open d w) (h : Steps d w ls w') : Open d w' := by
  induction h with
  | nil _ => exact hw
  | cons h1 _ ih => exact ih (step_open hw h1)

/-- what holds says only so much about the deployment -/
theorem Shape.change {d d' : FDep} {w : World} (hw : Shape d w) (hv : Valid d') (hz : d.spec.replicas = 0 → d'.spec.replicas ≠ 0 → ∀ f ∈ w.sets, f.set.spec = 0) : Shape d' w := by
  refine ⟨hv, ⟨⟨hw.loose.base.unique, hw.loose.base.nonneg, fun h => h.elim⟩, fun h0 f hf hp => ?_⟩, hw.none, hw.templates⟩
  by_cases hd : d.spec.replicas = 0
  · have := hz hd h0 f hf; omega
  · exact hw.loose.limits hd f hf hp

/-- nothing is there yet -/
theorem created_shape {d : FDep} (hv : Valid d) : Shape d { sets := [], fleet := fun _ => { ms := [] } } :=
  ⟨hv, ⟨⟨List.nodup_nil, by simp, fun h => h.elim⟩, fun _ f hf => by cases hf⟩, fun _ _ => rfl, by simp⟩

/-- a run, with what it may do to the deployment -/
theorem run_shape {d : FDep} {w : World} (hw : Shape d w) {e : Dispatch.Env} {seen : List FSet} (hsee : Sees w.sets seen) (he : e.Fine seen) :
    Shape (reconcile d e seen).dep (w.deploy d e seen) := by
  obtain ⟨h1, h2, _⟩ := reconcile_dep hw.valid he (sees_loose hsee hw.loose) (agree_templates (sees_agree hsee) hw.templates)
  exact (deploy_shape hw hsee he).change h1 fun h0 h3 => by rw [h2] at h3; exact absurd h0 h3

theorem History.open {d : FDep} {w : World} (h : History d w) : Open d w := by
  induction h with
  | created d hv => exact ⟨created_shape hv, fun n => ⟨by simp, by simp, rfl⟩⟩
  | step _ hs _ ih => exact step_open ih hs
  | run _ hsee he ih => exact ⟨run_shape ih.toShape hsee he, ih.start⟩
  | edit _ hv hz ih => exact ⟨ih.toShape.change hv hz, ih.start⟩
  | removed n _ ih => exact ⟨mark_shape ih.toShape n, ih.start⟩

/-! ### A change is taken up -/

theorem step_stage {d : FDep} (hd : Rolls d) {w w' : World} {l : Lab} (hw : Shape d w) (h : Step d w l w') (i : Nat) (hg : (∀ n, l ≠ .gone n) ∨ i = 3) (hi : Stage d i w.sets) :
    Stage d i w'.sets := by
  have deploy : ∀ (e : Dispatch.Env) (seen : List FSet), Sees w.sets seen → e.Fine seen → Stage d i (w.deploy d e seen).sets := by
    intro e seen hsee he
    have hl := sees_loose hsee hw.loose
    obtain ⟨h1, h2⟩ := reconcile_loose hd hw.valid.sizes he hl
    exact agree_stage (restore_agree _ _) (restore_avail hw.loose.base h1.base) i (h2 i (agree_stage (sees_agree hsee) (sees_avail hsee) i hi))
  cases h with
  | machines f l s' hf hst => exact hi
  | status f hf => exact agree_stage (report_agree w f.set.name) (report_avail hw.loose.base _) i hi
  | gone f hf h1 h2 =>
    rcases hg with hg | rfl
    · exact absurd rfl (hg _)
    · exact drop_sound (P := True) hi _
  | poor e seen h1 h2 => exact deploy e seen h1 h2
  | good e h1 _ _ _ _ => exact deploy e w.sets (sees_refl hw.loose.base) h1

theorem steps_sound {d : FDep} (hd : Rolls d) {w w' : World} {ls : List Lab} (hw : Shape d w) (h : Steps d w ls w') (hs : Sound d w.sets) : Shape d w' ∧ Sound d w'.sets := by
  induction h with
  | nil _ => exact ⟨hw, hs⟩
  | cons h1 _ ih => exact ih (step_shape hw h1) (step_stage hd hw h1 3 (.inr rfl) hs)

theorem epochs_sound {d : FDep} (hd : Rolls d) {n : Nat} {w w' : World} (hw : Shape d w) (h : Epochs d n w w') (hs : Sound d w.sets) : Shape d w' ∧ Sound d w'.sets := by
  induction h with
  | zero _ => exact ⟨hw, hs⟩
  | succ h1 _ ih =>
    obtain ⟨ls, h1, _⟩ := h1
    obtain ⟨a, b⟩ := steps_sound hd hw h1 hs
    exact ih a b

/-- as long as the current set is not being deleted, the number of sets decreases with every removal and never increases -/
theorem steps_room {d : FDep} (hd : Plain d) {w w' : World} {ls : List Lab} (hw : Shape d w) (hf : Fresh d w.sets) (h : Steps d w ls w') :
    Fresh d w'.sets ∧ room d w'.sets ≤ room d w.sets ∧ ((∃ n, .gone n ∈ ls) → room d w'.sets < room d w.sets) := by
  induction h with
  | nil _ => exact ⟨hf, Nat.le_refl _, fun ⟨n, h⟩ => by cases h⟩
  | cons h1 _ ih =>
    obtain ⟨a, b⟩ := step_slack hd hw.loose.base.unique hf h1
    obtain ⟨x, y, z⟩ := ih (step_shape hw h1) a
    rcases b with ⟨_, _, b⟩ | ⟨hl, _, b, _⟩
    · exact ⟨x, by omega, fun _ => by omega⟩
    · refine ⟨x, by omega, fun ⟨n, hn⟩ => ?_⟩
      rcases List.mem_cons.1 hn with hn | hn
      · exact absurd hn.symm (hl n)
      · have := z ⟨n, hn⟩; omega

theorem epochs_room {d : FDep} (hd : Plain d) {n : Nat} {w w' : World} (hw : Shape d w) (hf : Fresh d w.sets) (h : Epochs d n w w') :
    Fresh d w'.sets ∧ room d w'.sets ≤ room d w.sets := by
  induction h with
  | zero _ => exact ⟨hf, Nat.le_refl _⟩
  | succ h1 _ ih =>
    obtain ⟨ls, h1, _⟩ := h1
    obtain ⟨a, b, _⟩ := steps_room hd hw hf h1
    obtain ⟨x, y⟩ := ih (steps_shape hw h1) a
    exact ⟨x, by omega⟩

theorem steps_stage {d : FDep} (hd : Rolls d) {w w' : World} {ls : List Lab} (hw : Shape d w) (h : Steps d w ls w') (hg : ∀ n, .gone n ∉ ls) (i : Nat) (hi : Stage d i w.sets) :
    Stage d i w'.sets := by
  induction h with
  | nil _ => exact hi
  | cons h1 _ ih =>
    exact ih (step_shape hw h1) (fun n hn => hg n (List.mem_cons_of_mem _ hn)) (step_stage hd hw h1 i (.inl fun n hn => hg n (by rw [hn]; exact List.mem_cons_self ..)) hi)

/-- every epoch without removals takes it one stage further -/
theorem epoch_stage {d : FDep} (hd : Rolls d) (hsel : d.selectsAll = false) (hsu : (scaledValue d.spec.maxSurge d.spec.replicas true).isSome = true) {w w' : World}
    (hw : Shape d w) (hfr : Fresh d w.sets) (h : Epoch d w w') (hroom : room d w'.sets = room d w.sets) (i : Nat) (hi : Stage d i w.sets) : Shape d w' ∧ Stage d (i + 1) w'.sets := by
  obtain ⟨ls, hs, hg, hrest⟩ := h
  clear hrest
  have hgone : ∀ n, .gone n ∉ ls := fun n hn => by have := (steps_room hd.toPlain hw hfr hs).2.2 ⟨n, hn⟩; omega
  refine ⟨steps_shape hw hs, ?_⟩
  clear hroom hfr
  induction hs with
  | nil _ => cases hg
  | @cons w w1 w2 l ls h1 h2 ih =>
    have hgone' : ∀ n, .gone n ∉ ls := fun n hn => hgone n (List.mem_cons_of_mem _ hn)
    rcases List.mem_cons.1 hg with hl | hl
    · subst hl
      refine steps_stage hd (step_shape hw h1) h2 hgone' (i + 1) ?_
      cases h1 with
      | good e e1 e2 e3 e4 _ =>
        have hr := (reconcile_loose hd hw.valid.sizes e1 hw.loose).1
        exact agree_stage (restore_agree _ _) (restore_avail hw.loose.base hr.base) (i + 1) (reconcile_next hd hw.valid.sizes hsel hsu e1 e2 e4 hw.loose i hi)
    · exact ih (step_shape hw h1) (step_stage hd hw h1 i (.inl fun n hn => hgone n (by rw [hn]; exact List.mem_cons_self ..)) hi) hl hgone'

theorem epochs_open {d : FDep} {n : Nat} {w w' : World} (hw : Open d w) (h : Epochs d n w w') : Open d w' := by
  induction h with
  | zero _ => exact hw
  | succ h1 _ ih => obtain ⟨ls, h1, _⟩ := h1; exact ih (steps_open hw h1)

theorem epochs_shape {d : FDep} {n : Nat} {w w' : World} (hw : Shape d w) (h : Epochs d n w w') : Shape d w' := by
  induction h with
  | zero _ => exact hw
  | succ h1 _ ih => obtain ⟨ls, h1, _⟩ := h1; exact ih (steps_shape hw h1)

theorem Shape.ready {d : FDep} {w : World} (hw : Shape d w) (hs : Sound d w.sets) (hst : ∀ n, Fleet.Start (w.fleet n)) (hfr : Fresh d w.sets) : Ready d w :=
  ⟨hs, hst, hw.none, fun f hf he => ((hw.templates f hf).honest hw.valid).1 he, hfr⟩

/-- three epochs without removals after the last change everything is in order with the sets -/
theorem three_epochs {d : FDep} (hd : Rolls d) (hsel : d.selectsAll = false) (hsu : (scaledValue d.spec.maxSurge d.spec.replicas true).isSome = true) {w w' : World}
    (hw : Shape d w) (hfr : Fresh d w.sets) (h : Epochs d 3 w w') (hroom : room d w'.sets = room d w.sets) : Sound d w'.sets := by
  cases h with
  | succ e1 h => cases h with
    | succ e2 h => cases h with
      | succ e3 h =>
        cases h
        obtain ⟨l1, k1, _⟩ := id e1
        obtain ⟨l2, k2, _⟩ := id e2
        obtain ⟨l3, k3, _⟩ := id e3
        obtain ⟨f1, r1, _⟩ := steps_room hd.toPlain hw hfr k1
        have o1 := steps_shape hw k1
        obtain ⟨f2, r2, _⟩ := steps_room hd.toPlain o1 f1 k2
        have o2 := steps_shape o1 k2
        obtain ⟨f3, r3, _⟩ := steps_room hd.toPlain o2 f2 k3
        have s1 := (epoch_stage hd hsel hsu hw hfr e1 (by omega) 0 trivial).2
        have s2 := (epoch_stage hd hsel hsu o1 f1 e2 (by omega) 1 s1).2
        exact (epoch_stage hd hsel hsu o2 f2 e3 (by omega) 2 s2).2

/-- as many epochs as there can be removals, threefold, after the last change everything is in order with the sets -/
theorem taken_up_shape {d : FDep} (hd : Rolls d) (hsel : d.selectsAll = false) (hsu : (scaledValue d.spec.maxSurge d.spec.replicas true).isSome = true) :
    ∀ (r : Nat) {w w' : World} {n : Nat}, Shape d w → Fresh d w.sets → room d w.sets ≤ r → 3 * (r + 1) ≤ n → Epochs d n w w' → Shape d w' ∧ Sound d w'.sets ∧ Fresh d w'.sets := by
  intro r
  induction r with
  | zero =>
    intro w w' n hw hfr hr hn h
    obtain ⟨m, rfl⟩ : ∃ m, n = 3 + m := ⟨n - 3, by omega⟩
    obtain ⟨w1, h1, h2⟩ := h.split
    obtain ⟨f1, r1⟩ := epochs_room hd.toPlain hw hfr h1
    have o1 := epochs_shape hw h1
    obtain ⟨a, b⟩ := epochs_sound hd o1 h2 (three_epochs hd hsel hsu hw hfr h1 (by omega))
    exact ⟨a, b, (epochs_room hd.toPlain o1 f1 h2).1⟩
  | succ r ih =>
    intro w w' n hw hfr hr hn h
    obtain ⟨m, rfl⟩ : ∃ m, n = 3 + m := ⟨n - 3, by omega⟩
    obtain ⟨w1, h1, h2⟩ := h.split
    obtain ⟨f1, r1⟩ := epochs_room hd.toPlain hw hfr h1
    have o1 := epochs_shape hw h1
    by_cases hroom : room d w1.sets = room d w.sets
    · obtain ⟨a, b⟩ := epochs_sound hd o1 h2 (three_epochs hd hsel hsu hw hfr h1 hroom)
      exact ⟨a, b, (epochs_room hd.toPlain o1 f1 h2).1⟩
    · exact ih o1 f1 (by omega) (by omega) h2

theorem room_le (d : FDep) (l : List FSet) : room d l ≤ l.length + 1 := by
  unfold room vacant
  split <;> omega

/-- then everything is in order -/
theorem taken_up {d : FDep} (hd : Rolls d) (hsel : d.selectsAll = false) (hsu : (scaledValue d.spec.maxSurge d.spec.replicas true).isSome = true) {w w' : World}
    (hw : Open d w) (hfr : Fresh d w.sets) {n : Nat} (hn : 3 * w.sets.length + 6 ≤ n) (h : Epochs d n w w') : Ready d w' := by
  obtain ⟨h1, h2, h3⟩ := taken_up_shape hd hsel hsu (w.sets.length + 1) hw.toShape hfr (room_le _ _) (by omega) h
  exact h1.ready h2 (epochs_open hw h).start h3

/-! ### A current set that is being deleted goes away -/

/-- an execution, epoch by epoch -/
def Goes (d : FDep) (s : Nat → World) : Prop := ∀ i, Epoch d (s i) (s (i + 1))

theorem Goes.epochs {d : FDep} {s : Nat → World} (h : Goes d s) (k : Nat) : ∀ i, Epochs d k (s i) (s (i + k)) := by
  induction k with
  | zero => intro i; exact .zero _
  | succ k ih =>
    intro i
    have := ih (i + 1)
    rw [show i + 1 + k = i + (k + 1) by omega] at this
    exact .succ (h i) this

/-- the sets of the current template -/
def matching (d : FDep) (l : List FSet) : Nat := l.countP fun f => equalIgnoreHash f.tmpl d.template

theorem matching_forall2 {d : FDep} {R : FSet → FSet → Prop} (hR : ∀ a b, R a b → b.tmpl.labels = a.tmpl.labels ∧ b.tmpl.body = a.tmpl.body) {l l' : List FSet}
    (h : List.Forall₂ R l l') : matching d l' = matching d l := by
  unfold matching
  induction h with
  | nil => rfl
  | @cons a b l l' hr _ ih =>
    have : equalIgnoreHash b.tmpl d.template = equalIgnoreHash a.tmpl d.template := by unfold equalIgnoreHash; rw [(hR _ _ hr).1, (hR _ _ hr).2]
    rw [List.countP_cons, List.countP_cons, ih, this]

theorem matching_drop {d : FDep} {l : List FSet} {f : FSet} (hf : f ∈ l) : matching d (others l f.set.name) ≤ matching d l ∧
    (equalIgnoreHash f.tmpl d.template = true → matching d (others l f.set.name) < matching d l) := by
  unfold matching others
  refine ⟨List.filter_sublist.countP_le, fun he => ?_⟩
  induction l with
  | nil => cases hf
  | cons a l ih =>
    have hle : List.countP (fun f => equalIgnoreHash f.tmpl d.template) (List.filter (fun g => !(g.set.name == f.set.name)) l) ≤
      List.countP (fun f => equalIgnoreHash f.tmpl d.template) l := List.filter_sublist.countP_le
    rcases List.mem_cons.1 hf with rfl | hf
    · rw [List.filter_cons, if_neg (by simp), List.countP_cons, he]
      simp only [if_true]
      omega
    · have := ih hf
      rw [List.filter_cons]
      split
      · rw [List.countP_cons, List.countP_cons]; omega
      · rw [List.countP_cons]; omega

/-- a set that is being deleted, whatever its size is -/
def doomed : MachineSet.MSet := { replicas := 0, deleting := true }

theorem doomed_step {f : FSet} (hf : f.deleting = true) {s s' : Fleet.Fleet} {l : Fleet.Lab} (h : Fleet.Step (demand f) s l s') : Fleet.Step doomed s l s' := by
  have hp : ∀ srt w, Fleet.plan srt (demand f) w = Fleet.plan srt doomed w := fun srt w => by
    unfold Fleet.plan
    rw [if_pos (show (demand f).deleting = true from hf), if_pos (show doomed.deleting = true from rfl)]
  cases h with
  | set srt now new h1 h2 h3 h4 =>
    have : Fleet.setRun srt now (demand f) s.ms = Fleet.setRun srt now doomed s.ms := by
      funext m
      unfold Fleet.setRun
      rw [hp]
    rw [this]
    exact .set srt now new h1 (by rw [← hp]; exact h2) h3 h4
  | machine e vm vms v x h1 h2 h3 => exact .machine e vm vms v x h1 h2 h3
  | late e vms t prio created trig h1 h2 h3 => exact .late e vms t prio created trig h1 h2 h3
  | early e vms t prio created trig h1 h2 => exact .early e vms t prio created trig h1 h2

theorem doomed_steps {f : FSet} (hf : f.deleting = true) {s s' : Fleet.Fleet} {ls : List Fleet.Lab} (h : Fleet.Steps (demand f) s ls s') : Fleet.Steps doomed s ls s' := by
  induction h with
  | nil _ => exact .nil _
  | cons h1 _ ih => exact .cons (doomed_step hf h1) ih

theorem step_marked {d : FDep} (hd : Plain d) {w w' : World} {l : Lab} (hu : Dispatch.Unique w.sets) (h : Step d w l w') (hl : ∀ n, l ≠ .gone n) {c : FSet} (hc : cur d w.sets = some c) :
    matching d w'.sets = matching d w.sets ∧ ∃ c', cur d w'.sets = some c' ∧ c'.set.name = c.set.name ∧ c'.deleting = c.deleting := by
  have still : ∀ {a b : List FSet} {c : FSet}, List.Forall₂ Still a b → cur d a = some c → ∃ c', cur d b = some c' ∧ c'.set.name = c.set.name ∧ c'.deleting = c.deleting := by
    intro a b c h hc
    rcases cur_forall2 (d := d) (fun a b hr => by rw [hr.tmpl]; exact ⟨rfl, rfl⟩) h with ⟨h1, _⟩ | ⟨x, y, h1, h2, hr⟩
    · rw [h1] at hc; cases hc
    · rw [h1] at hc; cases hc; exact ⟨y, h2, hr.name, hr.mark⟩
  have count : ∀ {a b : List FSet}, List.Forall₂ Still a b → matching d b = matching d a := fun h => matching_forall2 (fun a b hr => by rw [hr.tmpl]; exact ⟨rfl, rfl⟩) h
  obtain ⟨a, b, s1, ev, s2⟩ := step_evolves hd hu h hl
  obtain ⟨c1, h1, n1, m1⟩ := still s1 hc
  obtain ⟨c2, h2, n2, m2⟩ := evolves_cur ev h1
  obtain ⟨c3, h3, n3, m3⟩ := still s2 h2
  refine ⟨?_, c3, h3, by rw [n3, n2, n1], by rw [m3, m2, m1]⟩
  rw [count s2, ← count s1]
  rcases ev with ev | ⟨h0, _⟩
  · exact matching_forall2 (fun a b hr => hr.kept.2) ev
  · rw [h0] at h1; cases h1

/-- what happens to a current set that is being deleted, as long as it is current -/
structure Doomed (d : FDep) (w : World) (ls : List Lab) (w' : World) (c : FSet) : Prop where
  current : cur d w.sets = some c
  deleting : c.deleting = true
  stays : ∃ c', cur d w'.sets = some c' ∧ c'.set.name = c.set.name ∧ c'.deleting = true
  there : .gone c.set.name ∉ ls
  same : matching d w'.sets = matching d w.sets
  runs : Fleet.Steps doomed (w.fleet c.set.name) (proj c.set.name ls) (w'.fleet c.set.name)

theorem not_fresh {d : FDep} {l : List FSet} (h : ¬ Fresh d l) : ∃ c, cur d l = some c ∧ c.deleting = true := by
  refine Classical.byContradiction fun hn => h fun c hc => ?_
  cases hd : c.deleting with
  | false => rfl
  | true => exact absurd ⟨c, hc, hd⟩ hn

theorem step_doomed {d : FDep} (hd : Plain d) {w w' : World} {l : Lab} (hw : Shape d w) (h : Step d w l w') (hf : ¬ Fresh d w.sets) (hf' : ¬ Fresh d w'.sets) :
    matching d w'.sets < matching d w.sets ∨ ∃ c, Doomed d w [l] w' c := by
  have hu := hw.loose.base.unique
  obtain ⟨c, hc, hdel⟩ := not_fresh hf
  have hcm := cur_mem hc
  by_cases hg : ∃ n, l = .gone n
  · obtain ⟨n, rfl⟩ := hg
    cases h with
    | gone f hfm h1 h2 =>
      obtain ⟨m1, m2⟩ := matching_drop (d := d) hfm
      by_cases hm : equalIgnoreHash f.tmpl d.template = true
      · exact .inl (m2 hm)
      · by_cases hlt : matching d (w.drop f.set.name).sets < matching d w.sets
        · exact .inl hlt
        · have hne : c.set.name ≠ f.set.name := fun he => hm (by rw [← unique_eq w.sets hu c f hcm hfm he]; exact cur_match hc)
          refine .inr ⟨c, hc, hdel, ⟨c, ?_, rfl, hdel⟩, ?_, by unfold World.drop at hlt ⊢; dsimp only at hlt ⊢; omega, .nil _⟩
          · rw [← hc]
            exact cur_drop fun x hx => by rw [hc] at hx; cases hx; exact hne
          · intro hmem
            injection List.mem_singleton.1 hmem with he
            exact hne he
  · have hg : ∀ n, l ≠ .gone n := fun n h => hg ⟨n, h⟩
    obtain ⟨a, c', b1, b2, b3⟩ := step_marked hd hu h hg hc
    refine .inr ⟨c, hc, hdel, ⟨c', b1, b2, by rw [b3, hdel]⟩, fun hm => hg _ (List.mem_singleton.1 hm).symm, a, ?_⟩
    exact doomed_steps hdel (step_proj hu h hcm)

theorem fresh_steps {d : FDep} (hd : Plain d) {w w' : World} {ls : List Lab} (hw : Shape d w) (hf : Fresh d w.sets) (h : Steps d w ls w') : Fresh d w'.sets := (steps_room hd hw hf h).1

theorem steps_doomed {d : FDep} (hd : Plain d) {w w' : World} {ls : List Lab} (hw : Shape d w) (h : Steps d w ls w') (hf' : ¬ Fresh d w'.sets) :
    matching d w'.sets < matching d w.sets ∨ ∃ c, Doomed d w ls w' c := by
  induction h with
  | nil w =>
    obtain ⟨c, hc, hdel⟩ := not_fresh hf'
    exact .inr ⟨c, hc, hdel, ⟨c, hc, rfl, hdel⟩, by simp, rfl, .nil _⟩
  | @cons w w1 w2 l ls h1 h2 ih =>
    have hw1 := step_shape hw h1
    have hf1 : ¬ Fresh d w1.sets := fun h => hf' (fresh_steps hd hw1 h h2)
    have hf0 : ¬ Fresh d w.sets := fun h => hf1 (step_slack hd hw.loose.base.unique h h1).1
    rcases step_doomed hd hw h1 hf0 hf1 with a | ⟨c, a⟩
    · rcases ih hw1 hf' with b | ⟨c', b⟩
      · exact .inl (by omega)
      · exact .inl (by rw [b.same]; exact a)
    · rcases ih hw1 hf' with b | ⟨c', b⟩
      · exact .inl (by rw [← a.same]; exact b)
      · obtain ⟨x, hx, hxn, _⟩ := a.stays
        obtain rfl : x = c' := Option.some.inj (hx.symm.trans b.current)
        refine .inr ⟨c, a.current, a.deleting, ?_, fun hm => ?_, by rw [b.same, a.same], ?_⟩
        · obtain ⟨y, hy, hyn, hyd⟩ := b.stays
          exact ⟨y, hy, by rw [hyn, hxn], hyd⟩
        · rcases List.mem_cons.1 hm with hm | hm
          · exact a.there (by rw [hm]; simp)
          · exact b.there (by rw [hxn]; exact hm)
        · have hp : proj c.set.name (l :: ls) = proj c.set.name [l] ++ proj c.set.name ls := by
            unfold proj
            rw [← List.filterMap_append]; rfl
          have hb := b.runs
          rw [hxn] at hb
          rw [hp]; exact a.runs.append hb

theorem epochs_doomed {d : FDep} (hd : Plain d) {k : Nat} {w w' : World} (hw : Shape d w) (h : Epochs d k w w') (hf' : ¬ Fresh d w'.sets) :
    matching d w'.sets < matching d w.sets ∨ matching d w'.sets = matching d w.sets ∧ ∃ c, cur d w.sets = some c ∧ (∃ c', cur d w'.sets = some c' ∧ c'.set.name = c.set.name ∧ c'.deleting = true) ∧
      Fleet.Epochs doomed k (w.fleet c.set.name) (w'.fleet c.set.name) := by
  induction h with
  | zero w =>
    obtain ⟨c, hc, hdel⟩ := not_fresh hf'
    exact .inr ⟨rfl, c, hc, ⟨c, hc, rfl, hdel⟩, .zero _⟩
  | @succ k w w1 w2 h1 h2 ih =>
    obtain ⟨ls, s1, _, s2⟩ := h1
    have hw1 := steps_shape hw s1
    have hf1 : ¬ Fresh d w1.sets := fun h => hf' (epochs_room hd hw1 h h2).1
    rcases steps_doomed hd hw s1 hf1 with a | ⟨c, a⟩
    · rcases ih hw1 hf' with b | ⟨b, _⟩ <;> exact .inl (by omega)
    · rcases ih hw1 hf' with b | ⟨b, c', hc', hst, he⟩
      · exact .inl (by rw [← a.same]; exact b)
      · obtain ⟨x, hx, hxn, _⟩ := a.stays
        obtain rfl : x = c' := Option.some.inj (hx.symm.trans hc')
        rw [hxn] at hst he
        refine .inr ⟨by rw [b, a.same], c, a.current, hst, .succ ⟨_, a.runs, ?_⟩ he⟩
        rcases s2 c (cur_mem a.current) with hg | ⟨_, k1, _, k2⟩
        · exact absurd hg a.there
        · exact ⟨mem_proj k1, fun m hm m' hm' e1 e2 => mem_proj (k2 m hm m' hm' e1 e2)⟩

/-- the time comes when the current set is not being deleted -/
theorem becomes_fresh {d : FDep} (hd : Plain d) {s : Nat → World} (hg : Goes d s) : ∀ (r i : Nat), Shape d (s i) → (∀ n, Fleet.Start ((s i).fleet n)) → matching d (s i).sets ≤ r →
    ∃ j, i ≤ j ∧ Fresh d (s j).sets := by
  intro r
  induction r with
  | zero =>
    intro i _ _ hm
    refine ⟨i, Nat.le_refl _, fun c hc => ?_⟩
    have : 0 < matching d (s i).sets := List.countP_pos_iff.2 ⟨c, cur_mem hc, cur_match hc⟩
    omega
  | succ r ih =>
    intro i hw hst hm
    by_cases hf0 : Fresh d (s i).sets
    · exact ⟨i, Nat.le_refl _, hf0⟩
    obtain ⟨c, hc, hdel⟩ := not_fresh hf0
    obtain ⟨k, hk⟩ : ∃ k, Fleet.lives ((s i).fleet c.set.name).ms ≤ 100 * k := ⟨Fleet.lives ((s i).fleet c.set.name).ms, by omega⟩
    have hopen : Open d (s i) := ⟨hw, hst⟩
    have e1 := hg.epochs (k + 9) i
    have e2 := hg (i + (k + 9))
    have o1 := epochs_open hopen e1
    have o2 := epochs_open o1 (.succ e2 (.zero _))
    by_cases hf2 : Fresh d (s (i + (k + 9) + 1)).sets
    · exact ⟨_, by omega, hf2⟩
    have hf1 : ¬ Fresh d (s (i + (k + 9))).sets := fun h => hf2 (epochs_room hd o1.toShape h (.succ e2 (.zero _))).1
    have hless : matching d (s (i + (k + 9) + 1)).sets ≤ r := by
      obtain ⟨ls, s1, _, s2⟩ := e2
      rcases epochs_doomed hd hw e1 hf1 with a | ⟨a, x, hx, ⟨y, hy, hyn, hyd⟩, he⟩
      · rcases steps_doomed hd o1.toShape s1 hf2 with b | ⟨_, b⟩
        · omega
        · rw [b.same]; omega
      · obtain rfl : x = c := Option.some.inj (hx.symm.trans hc)
        have hcv := Fleet.converges (ms := doomed) (by decide) (hst _) (by show Fleet.goal doomed ≤ 100 * k; exact Nat.zero_le _) hk (Nat.le_refl _) he
        have hlen := hcv.desired.1
        rw [show Fleet.goal doomed = 0 from rfl] at hlen
        rcases steps_doomed hd o1.toShape s1 hf2 with b | ⟨z, b⟩
        · omega
        · obtain rfl : y = z := Option.some.inj (hy.symm.trans b.current)
          rcases s2 y (cur_mem hy) with hgone | ⟨hne, _⟩
          · exact absurd hgone b.there
          · rw [hyn] at hne
            exact absurd (List.length_eq_zero_iff.1 hlen) (hne hyd)
    obtain ⟨j, hj, hfj⟩ := ih (i + (k + 9) + 1) o2.toShape o2.start hless
    exact ⟨j, by omega, hfj⟩

/-! ### Every population is finite -/

theorem within_some {d : FDep} {w : World} (hn : ∀ n, (∀ f ∈ w.sets, f.set.name ≠ n) → (w.fleet n).ms = []) : ∃ k, Within k d w := by
  obtain ⟨b, hb⟩ : ∃ b : Nat, ∀ f ∈ w.sets, f.set.spec ≤ b ∧ (w.fleet f.set.name).ms.length ≤ b := by
    clear hn
    generalize w.sets = l
    induction l with
    | nil => exact ⟨0, by simp⟩
    | cons a l ih =>
      obtain ⟨b, hb⟩ := ih
      refine ⟨b + a.set.spec.toNat + (w.fleet a.set.name).ms.length, fun f hf => ?_⟩
      rcases List.mem_cons.1 hf with rfl | hf
      · omega
      · have := hb f hf; omega
  refine ⟨b + d.spec.replicas.toNat, by omega, fun f hf => by have := (hb f hf).1; omega, fun n => ?_⟩
  by_cases hx : ∃ f ∈ w.sets, f.set.name = n
  · obtain ⟨f, hf, rfl⟩ := hx
    have := (hb f hf).2; omega
  · rw [hn n fun f hf he => hx ⟨f, hf, he⟩]; simp

/-! ### The theorems -/

/-- C102: After any history – any number of edits of anything, at any moments, in the middle of rollouts and of scalings, rollbacks, pauses, other strategies, machine sets
deleted by hand, failing calls, stale statuses – a deployment that now asks for a rolling update, whose current machine set is not being deleted, and that is left alone comes
to what it asks for: three epochs for every set there is later, everything is in order, and after as many more as the population requires, there are exactly `replicas`
machines, all of the current template, all Running with one VM each, and no other machine or VM. -/
theorem C102_after_any_history (d : FDep) (w : World) (hh : History d w) (hd : Rolls d) (hsel : d.selectsAll = false) (surge unav : Int)
    (hsu : scaledValue d.spec.maxSurge d.spec.replicas true = some surge) (hun : scaledValue d.spec.maxUnavailable d.spec.replicas false = some unav) (h0 : 0 ≤ surge)
    (h1 : 0 ≤ unav) (hfr : ∀ f ∈ w.sets, SameTemplate f.tmpl d.template → f.deleting = false) (w1 w2 : World) (m : Nat) (hm : 3 * w.sets.length + 6 ≤ m) (hw : Epochs d m w w1) (k n : Nat)
    (hk : Within k d w1) (hn : ((wanted w1.sets + d.spec.replicas).toNat + 3 * w1.sets.length + 6) * (k + 11) ≤ n) (h : Epochs d n w1 w2) : RolledOut d w2 :=
  C101_rollout_ends d hd hsel surge unav hsu hun h0 h1 w1 w2 (taken_up hd hsel (by rw [hsu]; rfl) hh.open (fun c hc =>
    hfr c (cur_mem hc) (((hh.open.templates c (cur_mem hc)).honest hh.open.valid).1 (cur_match hc))) hm hw) k n hk hn h

/-- from some time on, whatever happens -/
theorem eventually_of {d : FDep} (hd : Rolls d) (hsel : d.selectsAll = false) {surge unav : Int} (hsu : scaledValue d.spec.maxSurge d.spec.replicas true = some surge)
    (hun : scaledValue d.spec.maxUnavailable d.spec.replicas false = some unav) (h0 : 0 ≤ surge) (h1 : 0 ≤ unav) {s : Nat → World} (hg : Goes d s) {i : Nat} (hw : Open d (s i)) :
    ∃ n, ∀ j, n ≤ j → ∀ ls w', Steps d (s j) ls w' → RolledOut d w' := by
  obtain ⟨j, _, hfr⟩ := becomes_fresh hd.toPlain hg _ i hw.toShape hw.start (Nat.le_refl _)
  have hj : Open d (s j) := by
    have := hg.epochs (j - i) i
    rw [show i + (j - i) = j by omega] at this
    exact epochs_open hw this
  have hr := taken_up hd hsel (by rw [hsu]; rfl) hj hfr (Nat.le_refl _) (hg.epochs _ j)
  obtain ⟨k, hk⟩ := within_some (d := d) hr.none
  refine ⟨(j + (3 * (s j).sets.length + 6)) + ((wanted (s (j + (3 * (s j).sets.length + 6))).sets + d.spec.replicas).toNat + 3 * (s (j + (3 * (s j).sets.length + 6))).sets.length + 6) * (k + 11),
    fun a ha ls w' h' => ?_⟩
  have he := hg.epochs (a - (j + (3 * (s j).sets.length + 6))) (j + (3 * (s j).sets.length + 6))
  rw [show (j + (3 * (s j).sets.length + 6)) + (a - (j + (3 * (s j).sets.length + 6))) = a by omega] at he
  exact C101_stays d hd hsel surge unav hsu hun h0 h1 _ _ w' hr k _ hk (by omega) he ls h'

/-- C102: In every fair execution after any history – also when the set of the current template is being deleted –, the time comes from which on the rollout is complete. -/
theorem C102_eventually (d : FDep) (s : Nat → World) (hh : History d (s 0)) (hd : Rolls d) (hsel : d.selectsAll = false) (surge unav : Int)
    (hsu : scaledValue d.spec.maxSurge d.spec.replicas true = some surge) (hun : scaledValue d.spec.maxUnavailable d.spec.replicas false = some unav) (h0 : 0 ≤ surge)
    (h1 : 0 ≤ unav) (hs : ∀ i, Epoch d (s i) (s (i + 1))) : ∃ n, ∀ j, n ≤ j → ∀ ls w', Steps d (s j) ls w' → RolledOut d w' :=
  eventually_of hd hsel hsu hun h0 h1 hs hh.open

/-- an execution from epochs that can be made -/
theorem goes_of {d : FDep} {P : World → Prop} (hP : ∀ w, P w → ∃ w', Epoch d w w' ∧ P w') {w : World} (hw : P w) : ∃ s : Nat → World, s 0 = w ∧ Goes d s := by
  let next : { w // P w } → { w // P w } := fun x => ⟨Classical.choose (hP x.1 x.2), (Classical.choose_spec (hP x.1 x.2)).2⟩
  refine ⟨fun i => (Nat.rec (motive := fun _ => { w // P w }) ⟨w, hw⟩ (fun _ x => next x) i).1, rfl, fun i => ?_⟩
  let x := Nat.rec (motive := fun _ => { w // P w }) ⟨w, hw⟩ (fun _ x => next x) i
  exact (Classical.choose_spec (hP x.1 x.2)).1

theorem epochs_possible {d : FDep} (n : Nat) {w : World} (hw : Open d w) : ∃ w', Epochs d n w w' := by
  obtain ⟨s, h0, h1⟩ := goes_of (d := d) (P := Open d) (fun w hw => by
    obtain ⟨w1, h1⟩ := epoch_possible d hw.loose.base.unique hw.start
    exact ⟨w1, h1, epochs_open hw (.succ h1 (.zero w1))⟩) hw
  have := h1.epochs n 0
  rw [h0, Nat.zero_add] at this
  exact ⟨_, this⟩

/-- C102: such executions exist after any history. -/
theorem C102_possible (d : FDep) (w : World) (hh : History d w) : ∃ s : Nat → World, s 0 = w ∧ ∀ i, Epoch d (s i) (s (i + 1)) :=
  goes_of (P := Open d) (fun w hw => by
    obtain ⟨w1, h1⟩ := epoch_possible d hw.loose.base.unique hw.start
    exact ⟨w1, h1, epochs_open hw (.succ h1 (.zero w1))⟩) hh.open

/-- C102: after any history the goal can be reached -/
theorem C102_reachable (d : FDep) (w : World) (hh : History d w) (hd : Rolls d) (hsel : d.selectsAll = false) (surge unav : Int)
    (hsu : scaledValue d.spec.maxSurge d.spec.replicas true = some surge) (hun : scaledValue d.spec.maxUnavailable d.spec.replicas false = some unav) (h0 : 0 ≤ surge)
    (h1 : 0 ≤ unav) : ∃ n w', Epochs d n w w' ∧ RolledOut d w' := by
  obtain ⟨s, e0, hs⟩ := C102_possible d w hh
  obtain ⟨n, hn⟩ := C102_eventually d s (by rw [e0]; exact hh) hd hsel surge unav hsu hun h0 h1 hs
  have := Goes.epochs hs n 0
  rw [e0, Nat.zero_add] at this
  exact ⟨n, s n, this, hn n (Nat.le_refl _) [] _ (.nil _)⟩

/-! ### A concrete history -/

/-- `n` machines of the template `t`, twice as many during a rollout -/
def zDep (n : Int) (t : String) : FDep := { spec := { replicas := n, maxSurge := some (.str "100%"), maxUnavailable := some (.int 0) }, template := { body := t } }

theorem zDep_valid (n : Int) (t : String) (h : 0 ≤ n ∧ n < 2^63) (hz : Sizes (zDep n t)) : Valid (zDep n t) :=
  ⟨rfl, h, hz, List.nodup_nil, List.nodup_nil, rfl, fun k v h => by cases h⟩

theorem fine_of (e : Dispatch.Env) (l : List FSet) (h1 : e.rolling.srt1 = id) (h2 : e.rolling.srt2 = id) (h3 : e.scale.srtNewest = id)
    (h4 : e.scale.srtSize = id ∨ e.scale.srtSize = List.reverse) (hf : ∀ f ∈ l, f.set.name ≠ e.fresh) (hc : e.created = .done) (hh : e.hash ≠ "")
    (h5 : e.cleanupSort = id := by rfl) : e.Fine l := by
  refine ⟨⟨fun l => by rw [h1]; exact List.Perm.refl l, fun l => by rw [h2]; exact List.Perm.refl l⟩, ⟨fun l => by rw [h3]; exact List.Perm.refl l, fun l => ?_⟩, hf,
    (fun f h => by rw [hc] at h; cases h), hh, fun l => by rw [h5]; exact List.Perm.refl l⟩
  rcases h4 with h4 | h4
  · rw [h4]; exact List.Perm.refl l
  · rw [h4]; exact List.reverse_perm l

theorem sees_self {l : List FSet} (h : ∀ f ∈ l, 0 ≤ f.set.avail) : Sees l l := by
  unfold Sees
  induction l with
  | nil => exact .nil
  | cons a l ih => exact .cons ⟨rfl, h a (by simp)⟩ (ih fun f hf => h f (by simp [hf]))

def noMachines (l : List FSet) : World := { sets := l, fleet := fun _ => { ms := [] } }

def zEnv (n h : String) : Dispatch.Env := { fresh := n, hash := h }

/-- ten machines of the template v1 are wanted, and the controller has run -/
def z1 : World := (noMachines []).deploy (zDep 10 "v1") (zEnv "a" "1") []
/-- then ten of the template v2 -/
def z2 : World := z1.deploy (zDep 10 "v2") (zEnv "b" "2") z1.sets

theorem z2_history : History (zDep 10 "v2") z2 := by
  have h0 : History (zDep 10 "v1") (noMachines []) := .created _ (zDep_valid 10 "v1" (by decide) ⟨by decide, by decide⟩)
  have h1 : History (zDep 10 "v1") z1 :=
    h0.run (e := zEnv "a" "1") .nil (fine_of _ _ rfl rfl rfl (.inl rfl) (by simp) rfl (show ("1" : String) ≠ "" by decide))
  have h2 : History (zDep 10 "v2") z1 := h1.edit (zDep_valid 10 "v2" (by decide) ⟨by decide, by decide⟩) (fun h => absurd h (by decide))
  exact h2.run (e := zEnv "b" "2") (sees_self (by decide +kernel)) (fine_of _ _ rfl rfl rfl (.inl rfl) (by decide +kernel) rfl (show ("2" : String) ≠ "" by decide))

/-- in the middle of the rollout: ten of each -/
example : z2.sets.map (fun f => (f.tmpl.body, f.set.spec)) = [("v1", 10), ("v2", 10)] := by decide +kernel

/-- now the template v3 and three machines at once: it will come to that -/
example : ∃ n w', Epochs (zDep 3 "v3") n z2 w' ∧ RolledOut (zDep 3 "v3") w' :=
  C102_reachable (zDep 3 "v3") z2 (z2_history.edit (zDep_valid 3 "v3" (by decide) ⟨by decide, by decide⟩) (fun h => absurd h (by decide)))
    ⟨⟨rfl, rfl, rfl, by decide, List.nodup_nil, List.nodup_nil⟩, rfl⟩ rfl 3 0 (by decide +kernel) (by decide +kernel) (by decide) (by decide)

/-- even if somebody deletes both machine sets first, of which the second is that of the current template -/
example : ∃ n w', Epochs (zDep 10 "v2") n ((z2.mark "a").mark "b") w' ∧ RolledOut (zDep 10 "v2") w' :=
  C102_reachable (zDep 10 "v2") _ ((z2_history.removed "a").removed "b") ⟨⟨rfl, rfl, rfl, by decide, List.nodup_nil, List.nodup_nil⟩, rfl⟩ rfl 10 0 (by decide +kernel)
    (by decide +kernel) (by decide) (by decide)

/-! ### The exception -/

/-- what the controller then sees: seven machines of v1 and one of v2 are not available -/
def z2seen : List FSet := z2.sets.map fun f => { f with status := 10, set := { f.set with avail := if f.set.name = "a" then 3 else 9 } }

/-- template v3 and no replicas at once; the second update of a set fails -/
def z3Env : Dispatch.Env := { fresh := "c", hash := "3", rolling := { okClean := fun s => s.name != "b" } }

def z3 : World := z2.deploy (zDep 0 "v3") z3Env z2seen

/-- C102: "The deployment may be scaled up from zero at any time" is not so. `getMachineSetFraction` (deployment_util.go:692-694) divides by the recorded limit of a set and
says that it is never zero there. It is zero after a run of a deployment with zero replicas that was cut short: with a new template and zero replicas at once there is no
current set and so no scaling, but a rollout, and its clean-up of unavailable machines reduces one set, recording the limit 0, before the next update fails. If the
deployment is now given one replica, the sets are scaled down in proportion, and dividing by zero gives an infinity whose conversion to an int32 is not specified
(on arm64 it is the largest number: `junk`); the deployment with one replica gets a machine set of 2147483647 machines. -/
theorem C102_limit_zero_false : ∃ (d d' : FDep) (w : World) (e : Dispatch.Env), History d w ∧ d.spec.replicas = 0 ∧ Valid d' ∧ d'.spec.replicas = 1 ∧ Rolls d' ∧ e.Fine w.sets ∧
    (∀ f ∈ w.sets, f.set.spec ≤ 10) ∧ ∃ f ∈ (w.deploy d' e w.sets).sets, f.set.spec = 2147483647 := by
  refine ⟨zDep 0 "v3", zDep 1 "v3", z3, { fresh := "d", hash := "4", scale := { srtSize := List.reverse, junk := 2147483647 } }, ?_, rfl,
    zDep_valid 1 "v3" (by decide) ⟨by decide, by decide⟩, rfl, ⟨⟨rfl, rfl, rfl, by decide, List.nodup_nil, List.nodup_nil⟩, rfl⟩, ?_, by decide +kernel, by decide +kernel⟩
  · have h := z2_history.edit (zDep_valid 0 "v3" (by decide) ⟨by decide, by decide⟩) (fun h => absurd h (by decide))
    refine h.run (e := z3Env) (seen := z2seen) ?_ (fine_of _ _ rfl rfl rfl (.inl rfl) (by decide +kernel) rfl (show ("3" : String) ≠ "" by decide))
    unfold z2seen Sees
    refine forall2_map _ _ fun a _ => ⟨rfl, ?_⟩
    dsimp only
    split <;> decide
  · exact fine_of _ _ rfl rfl rfl (.inr rfl) (by decide +kernel) rfl (show ("4" : String) ≠ "" by decide)

/-! ### The strategy without a rollout -/

/-- a run for a deployment whose strategy is neither RollingUpdate nor Recreate makes no sets and changes no templates -/
theorem other_kept {d : FDep} (ho : d.spec.strategy = .other) (ha : d.deleting = false) (hb : d.rollbackTo = none) (e : Dispatch.Env) {l : List FSet} (hu : Dispatch.Unique l) :
    List.Forall₂ Kept l (reconcile d e l).sets := by
  have hr : List.Forall₂ Kept l l := kept_refl_list l
  unfold reconcile
  rw [ha, hb]
  split
  · exact hr
  split
  · exact hr
  split
  · exact hr
  simp only [Bool.false_eq_true, if_false]
  split
  · exact hr
  split
  · exact sync_kept d e l hu
  · unfold scaleOrRoll
    dsimp only
    split
    · exact (getNew_same d e l hu).imp fun _ _ h => h.1
    split
    · exact sync_kept d e l hu
    · rw [ho]; exact hr

/-- C102, what is false for the strategy InPlaceUpdate, which validation accepts: whatever has happened before, if no machine set has the template of the deployment, then however long
the controllers run, none ever has, and the deployment never comes to what it asks for. -/
theorem C102_in_place_false (d : FDep) (w w' : World) (hh : History d w) (ho : d.spec.strategy ≠ .rolling ∧ d.spec.strategy ≠ .recreate) (hb : d.rollbackTo = none)
    (hn : ∀ f ∈ w.sets, ¬ SameTemplate f.tmpl d.template) (ls : List Lab) (hs : Steps d w ls w') :
    (∀ f ∈ w'.sets, ¬ SameTemplate f.tmpl d.template) ∧ w'.sets.length ≤ w.sets.length ∧ ¬ RolledOut d w' := by
  have ho : d.spec.strategy = .other := by
    cases h : d.spec.strategy with
    | rolling => exact absurd h ho.1
    | recreate => exact absurd h ho.2
    | other => rfl
  have hk : ∀ {l l' : List FSet}, List.Forall₂ (fun a b : FSet => b.tmpl.labels = a.tmpl.labels ∧ b.tmpl.body = a.tmpl.body) l l' →
      (∀ f ∈ l, ¬ SameTemplate f.tmpl d.template) → ∀ f ∈ l', ¬ SameTemplate f.tmpl d.template := by
    intro l l' h hl f hf hsame
    obtain ⟨a, ha, h1, h2⟩ := mem_forall2 h f hf
    unfold SameTemplate at hsame
    rw [h1, h2] at hsame
    exact hl a ha hsame
  have main : (∀ f ∈ w'.sets, ¬ SameTemplate f.tmpl d.template) ∧ w'.sets.length ≤ w.sets.length := by
    have hsh := hh.open.toShape
    clear hh
    induction hs with
    | nil _ => exact ⟨hn, Nat.le_refl _⟩
    | @cons w w1 w2 l ls h1 h2 ih =>
      have deploy : ∀ (e : Dispatch.Env) (seen : List FSet), Sees w.sets seen →
          (∀ f ∈ (w.deploy d e seen).sets, ¬ SameTemplate f.tmpl d.template) ∧ (w.deploy d e seen).sets.length = w.sets.length := by
        intro e seen hsee
        have hag := sees_agree hsee
        have hk2 := other_kept ho hsh.valid.alive hb e (sees_loose hsee hsh.loose).base.unique
        refine ⟨hk ((restore_agree w.sets (reconcile d e seen).sets).imp fun _ _ h => agree_body h)
          (hk (hk2.imp fun _ _ h => h.2) (hk (hag.imp fun _ _ h => agree_body h) hn)), ?_⟩
        unfold World.deploy restore
        rw [List.length_map, ← hk2.length_eq, ← hag.length_eq]
      have hstep : (∀ f ∈ w1.sets, ¬ SameTemplate f.tmpl d.template) ∧ w1.sets.length ≤ w.sets.length := by
        cases h1 with
        | machines f l s' hf hst => exact ⟨hn, Nat.le_refl _⟩
        | status f hf => exact ⟨hk ((report_agree w f.set.name).imp fun _ _ h => agree_body h) hn, Nat.le_of_eq (report_agree w f.set.name).length_eq.symm⟩
        | gone f hf _ _ => exact ⟨fun g hg => hn g (mem_others.1 hg).1, List.length_filter_le _ _⟩
        | poor e seen a b => exact ⟨(deploy e seen a).1, Nat.le_of_eq (deploy e seen a).2⟩
        | good e a _ _ _ _ => exact ⟨(deploy e w.sets (sees_refl hsh.loose.base)).1, Nat.le_of_eq (deploy e w.sets (sees_refl hsh.loose.base)).2⟩
      obtain ⟨a, b⟩ := ih hstep.1 (step_shape hsh h1)
      exact ⟨a, Nat.le_trans b hstep.2⟩
  refine ⟨main.1, main.2, fun ⟨c, hc, ht, _⟩ => main.1 c hc ht⟩

/-- three machines by InPlaceUpdate: there will be none -/
def iDep : FDep := { spec := { replicas := 3, strategy := .other, maxSurge := none, maxUnavailable := none }, template := { body := "v1" } }
example (w' : World) (ls : List Lab) (hs : Steps iDep { sets := [], fleet := fun _ => { ms := [] } } ls w') : w'.sets = [] :=
  List.length_eq_zero_iff.1 (Nat.le_zero.1 (C102_in_place_false iDep _ w' (.created _ ⟨rfl, ⟨by decide, by decide⟩, ⟨by decide, by decide⟩, List.nodup_nil, List.nodup_nil, rfl, nofun⟩)
    ⟨by decide, by decide⟩ rfl nofun ls hs).2.1)

end MCM.World
