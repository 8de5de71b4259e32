import Verif.Props.History
import Verif.Lemmas.RecreateSteps
/-!
C103: a deployment with the strategy Recreate comes to what it asks for, too.
-/
namespace MCM.World
open MCM MCM.Dispatch MCM.Rolling MCM.Template

/-! ### The invariant and the measure -/

/-- what holds at any time; and if a scaling request is pending, at most one set wants machines -/
structure Apart (d : FDep) (w : World) : Prop extends Open d w where
  single : Single d w.sets
  /-- the set of the current template is not being deleted -/
  current : Fresh d w.sets

theorem drop_pending {d : FDep} {l : List FSet} {n : String} (h : pending d (others l n) = true) : pending d l = true := by
  obtain ⟨f, hf, h1⟩ := List.any_eq_true.1 h
  exact List.any_eq_true.2 ⟨f, (mem_others.1 hf).1, h1⟩

theorem drop_single {d : FDep} {l : List FSet} (h : Single d l) (n : String) : Single d (others l n) :=
  fun hp => Nat.le_trans (wanting_others_le l n) (h (drop_pending hp))

theorem rank_drop {d : FDep} {l : List FSet} (hu : Dispatch.Unique l) (hf : Fresh d l) {f : FSet} (hm : f ∈ l) (hdel : f.deleting = true) :
    rank d (others l f.set.name) ≤ rank d l + 1 := by
  have hc := fresh_drop hu hf hm hdel
  cases hn : cur d l with
  | none =>
    rw [rank_none hn, rank_none (by rw [hc, hn])]
    have := wanting_others_le l f.set.name
    omega
  | some n =>
    rw [rank_some hn, rank_some (by rw [hc, hn])]
    have h1 : (toWrite d (others l f.set.name) n).toNat ≤ 1 := Bool.toNat_le _
    have h2 : wanting (others (others l f.set.name) n.set.name) ≤ wanting (others l n.set.name) := ((others_twice l f.set.name n.set.name).filter _).length_le
    have h3 : (pending d (others l f.set.name) && decide (0 < wanting (others (others l f.set.name) n.set.name))).toNat ≤
        (pending d l && decide (0 < wanting (others l n.set.name))).toNat := by
      cases hp : pending d (others l f.set.name) with
      | false => simp
      | true =>
        rw [drop_pending hp]
        by_cases h0 : 0 < wanting (others (others l f.set.name) n.set.name)
        · have : 0 < wanting (others l n.set.name) := by omega
          simp [h0, this]
        · simp [h0]
    omega

theorem rank_target {d : FDep} {l : List FSet} (h : Target d l) : rank d l ≤ 1 := by
  obtain ⟨c, hc, h1, h2⟩ := h
  have h3 : wanting (others l c.set.name) = 0 := by
    unfold wanting
    refine List.length_eq_zero_iff.2 (List.filter_eq_nil_iff.2 fun f hf => ?_)
    unfold wants
    rw [h2 f (mem_others.1 hf).1 (mem_others.1 hf).2]
    decide
  rw [rank_some hc, h3, if_pos h1]
  have := Bool.toNat_le (toWrite d l c)
  simp
  omega

theorem single_step {d : FDep} (hd : Plain d) (hr : d.spec.strategy = .recreate) {w w' : World} {l : Lab} (hw : Shape d w) (hs : Single d w.sets) (h : Step d w l w') :
    Single d w'.sets := by
  have deploy : ∀ (e : Dispatch.Env) (seen : List FSet), Sees w.sets seen → e.Fine seen → Single d (w.deploy d e seen).sets := by
    intro e seen hsee he
    have hev : List.Forall₂ Even w.sets seen := (sees_agree hsee).imp fun _ _ h => h.even
    have hback : List.Forall₂ Even _ (w.deploy d e seen).sets := (restore_agree w.sets (reconcile d e seen).sets).imp fun _ _ h => h.even
    exact even_single hback (recreate_better hd hr he (sees_loose hsee hw.loose).base (even_single hev hs)).single
  cases h with
  | machines f l s' hf hst => exact hs
  | status f hf => exact even_single ((report_agree w f.set.name).imp fun _ _ h => h.even) hs
  | gone f hf _ _ => exact drop_single hs _
  | poor e seen h1 h2 => exact deploy e seen h1 h2
  | good e h1 _ _ _ _ => exact deploy e w.sets (sees_refl hw.loose.base) h1

theorem single_steps {d : FDep} (hd : Plain d) (hr : d.spec.strategy = .recreate) {ls : List Lab} {w w' : World} (hw : Shape d w) (hs : Single d w.sets)
    (h : Steps d w ls w') : Single d w'.sets := by
  induction h with
  | nil _ => exact hs
  | cons h1 _ ih => exact ih (step_shape hw h1) (single_step hd hr hw hs h1)

theorem single_epochs {d : FDep} (hd : Plain d) (hr : d.spec.strategy = .recreate) {n : Nat} {w w' : World} (hw : Shape d w) (hs : Single d w.sets) (h : Epochs d n w w') :
    Single d w'.sets := by
  induction h with
  | zero _ => exact hs
  | succ h1 _ ih =>
    obtain ⟨ls, h1, _⟩ := h1
    exact ih (steps_shape hw h1) (single_steps hd hr hw hs h1)

theorem step_apart {d : FDep} (hd : Plain d) (hr : d.spec.strategy = .recreate) {w w' : World} {l : Lab} (hw : Apart d w) (h : Step d w l w') :
    Apart d w' ∧ Steady (rank d) l w.sets w'.sets ∧ ∀ b : Nat, d.spec.replicas ≤ b → Bounded b w → Bounded b w' := by
  refine ⟨⟨step_open hw.toOpen h, single_step hd hr hw.toShape hw.single h, (step_slack hd hw.loose.base.unique hw.current h).1⟩, ?_⟩
  have deploy : ∀ (e : Dispatch.Env) (seen : List FSet), Sees w.sets seen → e.Fine seen → Steady (rank d) l w.sets (w.deploy d e seen).sets ∧
      ∀ b : Nat, d.spec.replicas ≤ b → Bounded b w → Bounded b (w.deploy d e seen) := by
    intro e seen hsee he
    have hev : List.Forall₂ Even w.sets seen := (sees_agree hsee).imp fun _ _ h => h.even
    have hback : List.Forall₂ Even _ (w.deploy d e seen).sets := (restore_agree w.sets (reconcile d e seen).sets).imp fun _ _ h => h.even
    have hb := recreate_better hd hr he (sees_loose hsee hw.loose).base (even_single hev hw.single)
    obtain ⟨h1, h2⟩ := even_rank (d := d) hev
    obtain ⟨h3, h4⟩ := even_rank (d := d) hback
    refine ⟨?_, fun b hbr hbd => ⟨below_specs h4 (hb.below b (below_specs h2 hbd.sets) hbr), hbd.fleets⟩⟩
    unfold Steady
    rw [h3, h4, ← h1, ← h2]
    exact hb.less.elim .inl fun h => .inr (.inl h)
  cases h with
  | machines f l s' hf hst => exact ⟨.inr (.inl ⟨rfl, rfl⟩), fun b _ hb => machines_bounded hf (hw.start _) hst hb⟩
  | status f hf =>
    obtain ⟨h1, h2⟩ := even_rank (d := d) ((report_agree w f.set.name).imp fun _ _ h => h.even)
    exact ⟨.inr (.inl ⟨h1, h2⟩), fun b _ hb => ⟨below_specs h2 hb.sets, hb.fleets⟩⟩
  | gone f hf h1 h2 => exact ⟨.inr (.inr ⟨⟨_, rfl⟩, rank_drop hw.loose.base.unique hw.current hf h1⟩), fun b _ hb => drop_bounded hb _⟩
  | poor e seen h1 h2 => exact deploy e seen h1 h2
  | good e h1 _ _ _ _ => exact deploy e w.sets (sees_refl hw.loose.base) h1

theorem recreate_drives {d : FDep} (hd : Plain d) (hr : d.spec.strategy = .recreate) (hsel : d.selectsAll = false) : Drives d (Apart d) fun l => rank d l + slack d l := by
  refine drives_of hd (fun hw => hw.loose.base.unique) (fun hw f hf => (hw.loose.base.nonneg f hf).1) (fun hw => hw.start) (fun hw => hw.current) (fun hw h => step_apart hd hr hw h)
    ?_ (fun hw hz => rank_zero (fun f hf => (hw.loose.base.nonneg f hf).1) hz) (fun _ ht => rank_target ht)
  intro w w' hw hf hq hall st hpos
  cases st with
  | good e e1 e2 e3 e4 e5 =>
    have hg : e.Good w.sets := by
      refine ⟨e2, e4, fun f hfm h0 => ⟨by rw [(hall f hfm f hfm rfl).1, h0], ?_⟩⟩
      rw [e5 hr, (hf f hfm).desired.1]
      have := goal_le f
      rw [h0] at this
      omega
    have hb := (recreate_better hd hr e1 hw.loose.base hw.single).good ⟨hg, hsel⟩ hpos
    have hk := (even_rank (d := d) ((restore_agree w.sets (reconcile d e w.sets).sets).imp fun _ _ h => h.even)).1
    unfold World.deploy
    dsimp only
    omega

theorem Apart.rolledOut {d : FDep} {w : World} (hw : Apart d w) (ht : Target d w.sets) (hf : Filled w) : RolledOut d w :=
  rolledOut_of hw.valid.size.1 hw.loose.base.unique hw.start hw.none hw.current hf (fun c hc => ((hw.templates c (cur_mem hc)).honest hw.valid).1 (cur_match hc)) ht

theorem recreate_measure (d : FDep) (l : List FSet) : rank d l + slack d l ≤ 5 * l.length + 7 := by
  have h1 := rank_le d l
  have h2 := slack_le d l
  omega

theorem Shape.fresh {d : FDep} {w : World} (hw : Shape d w) (h : ∀ f ∈ w.sets, SameTemplate f.tmpl d.template → f.deleting = false) : Fresh d w.sets :=
  fun c hc => h c (cur_mem hc) (((hw.templates c (cur_mem hc)).honest hw.valid).1 (cur_match hc))

/-! ### The theorems -/

/-- C103: After any history, a deployment with the strategy Recreate whose current machine set is not being deleted and that is left alone comes to what it asks for – the old
sets are brought to zero, then the set of the current template is created or scaled up –, provided that no scaling request is pending while several sets want machines:
exactly `replicas` machines, all of the current template, all Running with one VM each, and no other machine or VM. -/
theorem C103_recreate_ends_partial (d : FDep) (w w' : World) (hh : History d w) (hd : Plain d) (hr : d.spec.strategy = .recreate) (hsel : d.selectsAll = false)
    (hone : Single d w.sets) (hfr : ∀ f ∈ w.sets, SameTemplate f.tmpl d.template → f.deleting = false) (k n : Nat) (hk : Within k d w)
    (hn : (5 * w.sets.length + 8) * (k + 11) ≤ n) (h : Epochs d n w w') : RolledOut d w' := by
  obtain ⟨a, b, c⟩ := ends (recreate_drives hd hr hsel) ⟨hh.open, hone, hh.open.toShape.fresh hfr⟩ hk (recreate_measure d w.sets) hn h
  exact a.rolledOut b c

/-- C103: and it stays so, whatever runs follow. -/
theorem C103_stays_partial (d : FDep) (w w1 w2 : World) (hh : History d w) (hd : Plain d) (hr : d.spec.strategy = .recreate) (hsel : d.selectsAll = false)
    (hone : Single d w.sets) (hfr : ∀ f ∈ w.sets, SameTemplate f.tmpl d.template → f.deleting = false) (k n : Nat) (hk : Within k d w)
    (hn : (5 * w.sets.length + 8) * (k + 11) ≤ n) (h : Epochs d n w w1) (ls : List Lab) (h' : Steps d w1 ls w2) : RolledOut d w2 := by
  have D := recreate_drives hd hr hsel
  obtain ⟨a, b, c⟩ := ends D ⟨hh.open, hone, hh.open.toShape.fresh hfr⟩ hk (recreate_measure d w.sets) hn h
  obtain ⟨x, y, z⟩ := end_steps D a b c h'
  exact x.rolledOut y z

/-- from some time on, whatever happens -/
theorem recreate_eventually {d : FDep} (hd : Plain d) (hr : d.spec.strategy = .recreate) (hsel : d.selectsAll = false) {s : Nat → World} (hg : Goes d s) {i : Nat} (hw : Open d (s i))
    (hone : Single d (s i).sets) : ∃ n, ∀ j, n ≤ j → ∀ ls w', Steps d (s j) ls w' → RolledOut d w' := by
  obtain ⟨j, _, hfr⟩ := becomes_fresh hd hg _ i hw.toShape hw.start (Nat.le_refl _)
  have he := hg.epochs (j - i) i
  rw [show i + (j - i) = j by omega] at he
  have hj : Apart d (s j) := ⟨epochs_open hw he, single_epochs hd hr hw.toShape hone he, hfr⟩
  obtain ⟨k, hk⟩ := within_some (d := d) hj.none
  refine ⟨j + (5 * (s j).sets.length + 8) * (k + 11), fun a ha ls w' h' => ?_⟩
  have he := hg.epochs (a - j) j
  rw [show j + (a - j) = a by omega] at he
  have D := recreate_drives hd hr hsel
  obtain ⟨x, y, z⟩ := ends D hj hk (recreate_measure d _) (show (5 * (s j).sets.length + 8) * (k + 11) ≤ a - j by omega) he
  obtain ⟨x, y, z⟩ := end_steps D x y z h'
  exact x.rolledOut y z

/-- C103: In every fair execution after any history – also when the set of the current template is being deleted –, the time comes from which on there are exactly the machines
the deployment asks for, provided that no scaling request is pending while several sets want machines. -/
theorem C103_eventually_partial (d : FDep) (s : Nat → World) (hh : History d (s 0)) (hd : Plain d) (hr : d.spec.strategy = .recreate) (hsel : d.selectsAll = false)
    (hone : Single d (s 0).sets) (hs : ∀ i, Epoch d (s i) (s (i + 1))) : ∃ n, ∀ j, n ≤ j → ∀ ls w', Steps d (s j) ls w' → RolledOut d w' :=
  recreate_eventually hd hr hsel hs hh.open hone

/-! ### A deployment that always had this strategy -/

/-- as `History`, for a deployment whose strategy is Recreate all the time and that is never rolled back; everything else may be edited at any time -/
inductive Recreated : FDep → World → Prop
  | created (d : FDep) : Valid d → d.spec.strategy = .recreate → d.rollbackTo = none → Recreated d { sets := [], fleet := fun _ => { ms := [] } }
  | step {d : FDep} {w w' : World} {l : Lab} : Recreated d w → Step d w l w' → (∀ b, l ≠ .deploy b) → Recreated d w'
  | run {d : FDep} {w : World} {e : Dispatch.Env} {seen : List FSet} : Recreated d w → Sees w.sets seen → e.Fine seen → Recreated d (w.deploy d e seen)
  | edit {d d' : FDep} {w : World} : Recreated d w → Valid d' → d'.spec.strategy = .recreate → d'.rollbackTo = none →
      (d.spec.replicas = 0 → d'.spec.replicas ≠ 0 → ∀ f ∈ w.sets, f.set.spec = 0) → Recreated d' w
  | removed {d : FDep} {w : World} (n : String) : Recreated d w → Recreated d (w.mark n)

theorem Recreated.history {d : FDep} {w : World} (h : Recreated d w) : History d w ∧ d.spec.strategy = .recreate ∧ d.rollbackTo = none := by
  induction h with
  | created d hv h1 h2 => exact ⟨.created d hv, h1, h2⟩
  | step _ hs hl ih => exact ⟨ih.1.step hs hl, ih.2⟩
  | @run d w e seen _ hsee he ih =>
    obtain ⟨ih, h1, h2⟩ := ih
    have := ih.run hsee he
    have ho := ih.open
    rw [(reconcile_dep ho.valid he (sees_loose hsee ho.loose) (agree_templates (sees_agree hsee) ho.templates)).2.2 h2] at this
    exact ⟨this, h1, h2⟩
  | edit _ hv h1 h2 hz ih => exact ⟨ih.1.edit hv hz, h1, h2⟩
  | removed n _ ih => exact ⟨ih.1.removed n, ih.2⟩

/-- at most one set wants machines -/
theorem Recreated.one {d : FDep} {w : World} (h : Recreated d w) : wanting w.sets ≤ 1 := by
  induction h with
  | created d hv h1 h2 => exact Nat.zero_le 1
  | @step d w w' l _ hs hl ih =>
    cases hs with
    | machines f l s' hf hst => exact ih
    | status f hf => rw [even_wanting ((report_agree w f.set.name).imp fun _ _ h => h.even)]; exact ih
    | gone f hf _ _ => exact Nat.le_trans (wanting_others_le _ _) ih
    | poor e seen h1 h2 => exact absurd rfl (hl false)
    | good e h1 _ _ _ _ => exact absurd rfl (hl true)
  | @run d w e seen hw hsee he ih =>
    obtain ⟨hh, h1, h2⟩ := hw.history
    have hl := sees_loose hsee hh.open.loose
    have hv := hh.open.valid
    have hseen : wanting seen ≤ 1 := by rw [even_wanting ((sees_agree hsee).imp fun _ _ h => h.even)]; exact ih
    unfold World.deploy
    dsimp only
    rw [even_wanting ((restore_agree w.sets (reconcile d e seen).sets).imp fun _ _ h => h.even)]
    cases hp : d.paused with
    | false => exact (recreate_better ⟨hp, hv.alive, h2, hv.size, hv.keys, hv.labels⟩ h1 he hl.base (fun _ => hseen)).one hseen
    | true =>
      have : (reconcile d e seen).sets = seen ∨ (reconcile d e seen).sets = sync d e seen := by
        unfold reconcile
        rw [hv.alive, hp]
        split
        · exact .inl rfl
        split
        · exact .inl rfl
        split
        · exact .inl rfl
        simp only [Bool.false_eq_true, if_false, if_true]
        split
        · exact .inl rfl
        · exact .inr rfl
      rcases this with h | h
      · rw [h]; exact hseen
      · rw [h]; exact paused_one he hl.base.unique (fun f hf => (hl.base.nonneg f hf).1) hseen
  | edit _ _ _ _ _ ih => exact ih
  | @removed d w n _ ih => rw [even_wanting ((mark_agree w n).imp fun _ _ h => h.even)]; exact ih

/-- C103: A deployment that has always had the strategy Recreate never has two sets that want machines, and when it is left alone, the time comes from which on there are
exactly the machines it asks for. -/
theorem C103_always_recreate (d : FDep) (s : Nat → World) (hh : Recreated d (s 0)) (hp : d.paused = false) (hsel : d.selectsAll = false) (hs : ∀ i, Epoch d (s i) (s (i + 1))) :
    ((s 0).sets.filter fun f => decide (0 < f.set.spec)).length ≤ 1 ∧ ∃ n, ∀ j, n ≤ j → ∀ ls w', Steps d (s j) ls w' → RolledOut d w' := by
  obtain ⟨h1, h2, h3⟩ := hh.history
  have hv := h1.open.valid
  exact ⟨hh.one, recreate_eventually ⟨hp, hv.alive, h3, hv.size, hv.keys, hv.labels⟩ h2 hsel hs h1.open fun _ => hh.one⟩

/-- C103: so the goal can be reached -/
theorem C103_reachable (d : FDep) (w : World) (hh : Recreated d w) (hp : d.paused = false) (hsel : d.selectsAll = false) : ∃ n w', Epochs d n w w' ∧ RolledOut d w' := by
  obtain ⟨s, e0, hs⟩ := C102_possible d w hh.history.1
  obtain ⟨n, hn⟩ := (C103_always_recreate d s (by rw [e0]; exact hh) hp hsel hs).2
  have := Goes.epochs hs n 0
  rw [e0, Nat.zero_add] at this
  exact ⟨n, s n, this, hn n (Nat.le_refl _) [] _ (.nil _)⟩

/-! ### A concrete history -/

/-- `n` machines of the template `t`, recreated -/
def rDep (n : Int) (t : String) : FDep := { spec := { replicas := n, strategy := .recreate, maxSurge := none, maxUnavailable := none }, template := { body := t } }

theorem rDep_valid (n : Int) (t : String) (h : 0 ≤ n ∧ n < 2^63) (hz : Sizes (rDep n t)) : Valid (rDep n t) :=
  ⟨rfl, h, hz, List.nodup_nil, List.nodup_nil, rfl, fun k v h => by cases h⟩

def r1 : World := (noMachines []).deploy (rDep 3 "v1") (zEnv "a" "1") []

theorem r1_recreated : Recreated (rDep 3 "v1") r1 := by
  have h0 : Recreated (rDep 3 "v1") (noMachines []) := .created _ (rDep_valid 3 "v1" (by decide) ⟨by decide, by decide⟩) rfl rfl
  exact h0.run (e := zEnv "a" "1") .nil (fine_of _ _ rfl rfl rfl (.inl rfl) (by simp) rfl (show ("1" : String) ≠ "" by decide))

/-- a set of three machines, then another template and five machines: it will come to that -/
example : ∃ n w', Epochs (rDep 5 "v2") n r1 w' ∧ RolledOut (rDep 5 "v2") w' :=
  C103_reachable (rDep 5 "v2") r1 (r1_recreated.edit (rDep_valid 5 "v2" (by decide) ⟨by decide, by decide⟩) rfl rfl (fun h => absurd h (by decide))) rfl rfl

/-- the only set, of the current template, is deleted by hand: there will be another one -/
example : ∃ n w', Epochs (rDep 3 "v1") n (r1.mark "a") w' ∧ RolledOut (rDep 3 "v1") w' := C103_reachable (rDep 3 "v1") _ (r1_recreated.removed "a") rfl rfl

example : r1.sets.map (fun f => (f.tmpl.body, f.set.spec)) = [("v1", 3)] := by decide +kernel

/-! ### Stuck for ever -/

/-- several sets want machines, one of them was last scaled for another number of replicas, the set of the current template does not have the desired size, and no
set is being deleted -/
structure Stuck (d : FDep) (l : List FSet) : Prop where
  several : 2 ≤ wanting l
  pending : Dispatch.pending d l = true
  size : ∃ n, cur d l = some n ∧ n.set.spec ≠ d.spec.replicas
  quiet : Quiet l

theorem forall2_quiet {l l' : List FSet} (h : List.Forall₂ (fun a b : FSet => b.deleting = a.deleting) l l') (hq : Quiet l) : Quiet l' := by
  intro f hf
  obtain ⟨g, hg, hr⟩ := mem_forall2 h f hf
  rw [hr]; exact hq g hg

theorem even_stuck {d : FDep} {l l' : List FSet} (h : List.Forall₂ Even l l') (hq : Quiet l') (hs : Stuck d l) : Stuck d l' := by
  obtain ⟨n, h1, h2⟩ := hs.size
  refine ⟨by rw [even_wanting h]; exact hs.several, by rw [even_pending h]; exact hs.pending, ?_, hq⟩
  rcases cur_sameRev (d := d) (fun _ _ h => Even.toSameRev h) h with ⟨h3, _⟩ | ⟨a, b, h3, h4, h5, _⟩
  · rw [h1] at h3; cases h3
  · rw [h1] at h3; cases h3
    exact ⟨b, h4, by rw [h5.spec]; exact h2⟩

theorem run_stuck {d : FDep} (hd : Plain d) (hr : d.spec.strategy = .recreate) {e : Dispatch.Env} {l : List FSet} (he : e.Fine l) (hs : SoundIf False d l) (hst : Stuck d l) :
    Stuck d (reconcile d e l).sets ∧ specs (reconcile d e l).sets = specs l := by
  have hmain : Stuck d (scaleOrRoll d e l) ∧ specs (scaleOrRoll d e l) = specs l := by
    obtain ⟨m, hm1, hm2⟩ := hst.size
    rcases scaleOrRoll_recreate hr (e := e) hs with ⟨n, hn, hw, h⟩ | ⟨n, hn, hw, ⟨_, h⟩ | ⟨hdep, hev, h⟩ | ⟨hdep, hev, h⟩⟩ | ⟨hn, h⟩
    · rw [h]
      rw [(Option.some.inj (hm1.symm.trans hn) : m = n)] at hm2
      split
      · have hf := written_forall2 (d := d) hs.unique (cur_mem hn)
        refine ⟨⟨?_, ?_, ⟨written d l n, (write_rests hd hs hn hw).1, hm2⟩, ?_⟩, map_forall2 (fun a b hr => by rw [hr.1]) hf⟩
        · rw [wanting_congr (fun a b hr => by rw [hr.1]) hf]; exact hst.several
        · rw [pending_congr (fun a b hr => by rw [hr.1]; exact ⟨rfl, rfl⟩) hf]; exact hst.pending
        · refine forall2_quiet (hf.imp fun a b hr => ?_) hst.quiet
          rcases hr.2.2 with rfl | ⟨rfl, rfl⟩ <;> rfl
      · exact ⟨hst, rfl⟩
    · rw [h]; exact ⟨hst, rfl⟩
    · rw [(Option.some.inj (hm1.symm.trans hn) : m = n)] at hm2
      have hnone : Scale.findActiveOrLatest e.scale ((others l n.set.name).map (·.set)) (some n.set) = none := by
        refine Scale.find_none e.scale he.newest _ _ ?_
        have := wanting_perm hs.unique (cur_mem hn) (srt := id) (fun x => List.Perm.refl x)
        unfold Scale.SeveralActive
        unfold Scale.active at this
        rw [Option.toList_some]
        rw [show id ((others l n.set.name).map (·.set)) = (others l n.set.name).map (·.set) from rfl] at this
        have h2 := hst.several
        omega
      have hsat : Scale.isSaturated d.spec (some n.set) = false := by
        unfold Scale.isSaturated
        dsimp only
        split
        · rfl
        · simp [hm2]
      have hq : Quiet (scaleOrRoll d e l) := by
        rw [h, sync_sizes hd hs hn hw hdep]
        exact forall2_quiet (resize_rel (fun a _ _ => rfl) (fun a ha s hs' hname => rfl)) hst.quiet
      have hall : List.Forall₂ Even l (scaleOrRoll d e l) := by
        rw [h, sync_sizes hd hs hn hw hdep]
        unfold Scale.scale
        rw [hnone]
        dsimp only
        rw [hsat, hr]
        simp only [Bool.false_eq_true, if_false, reduceCtorEq]
        refine resize_rel (fun a _ _ => ⟨⟨rfl, rfl, rfl, rfl⟩, rfl, rfl⟩) (fun a ha s hs' hname => ?_)
        rw [Option.toList_some] at hs'
        obtain ⟨f, hf, rfl⟩ := mem_parts (cur_mem hn) s hs'
        rw [unique_eq l hs.unique f a hf ha hname]
        exact ⟨⟨rfl, rfl, rfl, rfl⟩, rfl, rfl⟩
      exact ⟨even_stuck hall hq hst, (even_rank (d := d) hall).2⟩
    · rw [(event_iff hs.unique (cur_mem hn)).2 (.inr hst.pending)] at hev; cases hev
    · rw [hn] at hm1; cases hm1
  rcases reconcile_rolls hd e l with h | h
  · rw [h]; exact ⟨hst, rfl⟩
  · rw [h]; exact hmain

theorem step_stuck {d : FDep} (hd : Plain d) (hr : d.spec.strategy = .recreate) {w w' : World} {l : Lab} (hw : Open d w) (hst : Stuck d w.sets) (h : Step d w l w') :
    Stuck d w'.sets ∧ specs w'.sets = specs w.sets := by
  have deploy : ∀ (e : Dispatch.Env) (seen : List FSet), Sees w.sets seen → e.Fine seen → Stuck d (w.deploy d e seen).sets ∧ specs (w.deploy d e seen).sets = specs w.sets := by
    intro e seen hsee he
    have hev : List.Forall₂ Even w.sets seen := (sees_agree hsee).imp fun _ _ h => h.even
    have hback : List.Forall₂ Even _ (w.deploy d e seen).sets := (restore_agree w.sets (reconcile d e seen).sets).imp fun _ _ h => h.even
    obtain ⟨h1, h2⟩ := run_stuck hd hr he (sees_loose hsee hw.loose).base (even_stuck hev (quiet_keys (still_keys (sees_still hsee)) hst.quiet) hst)
    exact ⟨even_stuck hback (quiet_keys (still_keys (restore_still _ _)) h1.quiet) h1, by rw [(even_rank (d := d) hback).2, h2, (even_rank (d := d) hev).2]⟩
  cases h with
  | machines f l s' hf hst' => exact ⟨hst, rfl⟩
  | status f hf =>
    have hev : List.Forall₂ Even w.sets (w.report f.set.name).sets := (report_agree w f.set.name).imp fun _ _ h => h.even
    exact ⟨even_stuck hev (quiet_keys (still_keys (report_still w f.set.name)) hst.quiet) hst, (even_rank (d := d) hev).2⟩
  | gone f hf h1 h2 => rw [hst.quiet f hf] at h1; cases h1
  | poor e seen h1 h2 => exact deploy e seen h1 h2
  | good e h1 _ _ _ _ => exact deploy e w.sets (sees_refl hw.loose.base) h1

theorem steps_stuck {d : FDep} (hd : Plain d) (hr : d.spec.strategy = .recreate) {w w' : World} {ls : List Lab} (hw : Open d w) (hst : Stuck d w.sets) (h : Steps d w ls w') :
    specs w'.sets = specs w.sets := by
  induction h with
  | nil _ => rfl
  | cons h1 _ ih =>
    obtain ⟨a, b⟩ := step_stuck hd hr hw hst h1
    rw [ih (step_open hw h1) a, b]

theorem two_not_out {d : FDep} {w : World} (hu : Dispatch.Unique w.sets) (h2 : 2 ≤ wanting w.sets) : ¬ RolledOut d w := by
  rintro ⟨c, hc, _, _, h, _⟩
  have : wanting w.sets ≤ 1 := wanting_one hu hc fun f hf hne => by rw [h f hf, if_neg hne]
  omega

/-- C103: such a deployment never gets anywhere, whatever happens in the controllers. -/
theorem C103_stuck (d : FDep) (w w' : World) (hh : History d w) (hd : Plain d) (hr : d.spec.strategy = .recreate) (hst : Stuck d w.sets) (ls : List Lab)
    (h : Steps d w ls w') : specs w'.sets = specs w.sets ∧ ¬ RolledOut d w' := by
  have hkeep : Stuck d w'.sets := by
    have ho := hh.open
    clear hh
    induction h with
    | nil _ => exact hst
    | cons h1 _ ih => exact ih (step_stuck hd hr ho hst h1).1 (step_open ho h1)
  exact ⟨steps_stuck hd hr hh.open hst h, two_not_out (steps_open hh.open h).loose.base.unique hkeep.several⟩

/-- the deployment in the middle of a rolling update (`z2`: ten machines of each template) gets the strategy Recreate and three replicas -/
def sDep : FDep := { zDep 3 "v2" with spec := { (zDep 3 "v2").spec with strategy := .recreate } }

/-- C103: "Every deployment with the strategy Recreate comes to what it asks for" is not so. When a rolling update is under way, the strategy is changed to Recreate and the
number of replicas is changed, too – at once or before the old sets are at zero –, `isScalingEvent` (deployment_sync.go:673-698) holds for ever: the recorded number differs
and `scale` (deployment_sync.go:402-489), which would record the new one, does nothing for Recreate when several sets want machines. The rollout that would bring the old
sets to zero is never reached. Here 20 machines of two templates remain where 3 were asked for, for ever. -/
theorem C103_two_sets_stuck_false : ∃ (d : FDep) (w : World), History d w ∧ Plain d ∧ d.spec.strategy = .recreate ∧ d.selectsAll = false ∧ d.spec.replicas = 3 ∧
    ∀ ls w', Steps d w ls w' → specs w'.sets = [("a", 10), ("b", 10)] ∧ ¬ RolledOut d w' := by
  have hh : History sDep z2 := z2_history.edit ⟨rfl, by decide, ⟨by decide, by decide⟩, List.nodup_nil, List.nodup_nil, rfl, fun k v h => by cases h⟩ (fun h => absurd h (by decide))
  have hp : Plain sDep := ⟨rfl, rfl, rfl, by decide, List.nodup_nil, List.nodup_nil⟩
  have hst : Stuck sDep z2.sets := by
    refine ⟨by decide +kernel, by decide +kernel, ?_, by unfold Quiet; decide +kernel⟩
    have h1 : (cur sDep z2.sets).map (·.set.spec) = some 10 := by decide +kernel
    obtain ⟨n, hn, h2⟩ := Option.map_eq_some_iff.1 h1
    exact ⟨n, hn, by rw [h2]; decide⟩
  refine ⟨sDep, z2, hh, hp, rfl, rfl, rfl, fun ls w' h => ?_⟩
  obtain ⟨h1, h2⟩ := C103_stuck sDep z2 w' hh hp rfl hst ls h
  exact ⟨by rw [h1]; decide +kernel, h2⟩

/-! ### A rollback -/

/-- template v2, and at the same time a request to return to revision 1 -/
def bDep : FDep := { rDep 3 "v2" with rollbackTo := some 1 }

/-- C103: "At most one set of a deployment with the strategy Recreate wants machines" is not so with rollbacks. `rollback` (deployment_rollback.go:40-44) first makes sure that
the set of the current template exists, and creates it at full size, next to the set that is in use. When the template was changed and the rollback requested before the
controller has run, three machines of the new template are created besides the three of the old one, which stay. -/
theorem C103_rollback_mixes_false : Recreated (rDep 3 "v1") r1 ∧ bDep.spec.strategy = .recreate ∧ (zEnv "b" "2").Fine r1.sets ∧
    (r1.deploy bDep (zEnv "b" "2") r1.sets).sets.map (fun f => (f.tmpl.body, f.set.spec)) = [("v1", 3), ("v2", 3)] ∧
    (reconcile bDep (zEnv "b" "2") r1.sets).dep.template.body = "v1" :=
  ⟨r1_recreated, rfl, fine_of _ _ rfl rfl rfl (.inl rfl) (by decide +kernel) rfl (show ("2" : String) ≠ "" by decide), by decide +kernel, by decide +kernel⟩

end MCM.World
