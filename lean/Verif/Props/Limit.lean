import Verif.Props.Complete
/-!
C143: old machine sets beyond the history limit go away.
-/
namespace MCM.World
open MCM MCM.Dispatch MCM.Rolling MCM.Template

/-! ### Specification -/

/-- A run of the deployment controller that sees everything as it is, the last change of every set observed by its controller, and whose calls succeed; it gets as far as the
clean-up if the status of the deployment, calculated from the sets as they are, says that the rollout is complete. -/
def Cleans (d : FDep) (w w' : World) : Prop :=
  ∃ e : Dispatch.Env, e.Fine w.sets ∧ e.Smooth ∧ AllOk e.rolling ∧ e.created = .done ∧ (d.spec.strategy = .recreate → ∀ n, e.machines n = (w.fleet n).ms.length) ∧
    ((∀ now gen, said now gen d w.sets = true) → e.cleanupReached = true) ∧ (∀ o, e.cleanupFails o = false) ∧ (∀ f ∈ w.sets, f.generation ≤ f.observed) ∧ w' = w.deploy d e w.sets

/-- between `w` and `w'` there is such a run -/
def Cleaned (d : FDep) (w w' : World) : Prop := ∃ ls a b ls', Steps d w ls a ∧ Cleans d a b ∧ Steps d b ls' w'

/-! ### Proofs -/

theorem settles {f : Nat → Nat} {k : Nat} (h : ∀ i, k ≤ i → f (i + 1) ≤ f i) : ∃ K, k ≤ K ∧ ∀ j, K ≤ j → f j = f K := by
  have mono : ∀ i, k ≤ i → ∀ n, f (i + n) ≤ f i := by
    intro i hi n
    induction n with
    | zero => exact Nat.le_refl _
    | succ n ih =>
      have := h (i + n) (by omega)
      rw [show i + (n + 1) = i + n + 1 by omega]
      omega
  suffices ∀ v i, k ≤ i → f i ≤ v → ∃ K, k ≤ K ∧ ∀ j, K ≤ j → f j = f K from this (f k) k (Nat.le_refl _) (Nat.le_refl _)
  intro v
  induction v with
  | zero =>
    intro i hi h0
    refine ⟨i, hi, fun j hj => ?_⟩
    have := mono i hi (j - i)
    rw [show i + (j - i) = j by omega] at this
    omega
  | succ v ih =>
    intro i hi hv
    by_cases hx : ∃ j, i ≤ j ∧ f j < f i
    · obtain ⟨j, hj, hlt⟩ := hx
      exact ih j (by omega) (by omega)
    · refine ⟨i, hi, fun j hj => ?_⟩
      have h1 := mono i hi (j - i)
      rw [show i + (j - i) = j by omega] at h1
      have h2 : ¬ f j < f i := fun h => hx ⟨j, hj, h⟩
      omega

theorem Cleans.step {d : FDep} {w w' : World} (h : Cleans d w w') : Step d w (.deploy true) w' := by
  obtain ⟨e, h1, h2, h3, h4, h5, _, _, _, rfl⟩ := h
  exact .good e h1 h2 h3 h4 h5

/-- the sets that are not being deleted, besides the current one -/
theorem unmarked_split {l : List FSet} (hu : Unique l) {c : FSet} (hc : c ∈ l) (hq : c.deleting = false) : unmarked l = ((others l c.set.name).filter fun f => !f.deleting).length + 1 := by
  unfold unmarked others
  induction l with
  | nil => cases hc
  | cons a l ih =>
    have hu' : Unique l := (List.nodup_cons.1 hu).2
    have ha : ∀ f ∈ l, f.set.name ≠ a.set.name := fun f hf he => (List.nodup_cons.1 hu).1 (List.mem_map.2 ⟨f, hf, he⟩)
    rcases List.mem_cons.1 hc with rfl | hm
    · rw [List.countP_cons_of_pos (by simp [hq]), List.filter_cons_of_neg (by simp), List.countP_eq_length_filter,
        List.filter_eq_self (l := l) (p := fun f => !f.set.name == c.set.name) |>.2 fun f hf => by simpa using ha f hf]
    · rw [List.filter_cons_of_pos (by simpa using fun h => ha c hm h.symm)]
      have := ih hu' hm
      cases hx : a.deleting with
      | true => rw [List.countP_cons_of_neg (by simp [hx]), List.filter_cons_of_neg (by simp [hx])]; exact this
      | false => rw [List.countP_cons_of_pos (by simp [hx]), List.filter_cons_of_pos (by simp [hx]), this, List.length_cons]

/-- a clean-up that finds too many sets marks one -/
theorem clean_marks {d : FDep} {e : Dispatch.Env} {w : World} (hu : Dispatch.Unique w.sets) (h1 : e.Fine w.sets) (hfail : ∀ o, e.cleanupFails o = false)
    (hobs : ∀ f ∈ w.sets, f.generation ≤ f.observed) {c : FSet} (hcm : c ∈ w.sets) (hcd : c.deleting = false) (hz : ∀ f ∈ w.sets, f.set.name ≠ c.set.name → f.set.spec = 0)
    (hr : ∀ n, Right n w) {k : Int} (hk : d.limit = some k) (hle : ¬ (unmarked w.sets : Int) ≤ max k 0 + 1) {x : List FSet}
    (hk2 : keys (cleanup d e (others w.sets c.set.name) x) = keys w.sets) : False := by
  have hum := unmarked_split hu hcm hcd
  -- the first of the sorted sets is deleted
  have hdel : ∃ o ∈ (Rollback.cleanup e.cleanupSort e.cleanupFails d.limit ((others w.sets c.set.name).map oldOf)).deleted, o.deleting = false ∧
      o ∈ (others w.sets c.set.name).map oldOf := by
    unfold Rollback.cleanup
    rw [hk]
    dsimp only
    have hlen : (((others w.sets c.set.name).map oldOf).filter fun s => !s.deleting).length = ((others w.sets c.set.name).filter fun f => !f.deleting).length := by
      rw [List.filter_map, List.length_map]
      rfl
    rw [hlen, if_neg (by omega)]
    obtain ⟨n, hn⟩ : ∃ n, ((((others w.sets c.set.name).filter fun f => !f.deleting).length : Int) - k).toNat = n + 1 := ⟨_, (Nat.succ_pred_eq_of_pos (by omega)).symm⟩
    rw [hn]
    have hp := h1.cleans (((others w.sets c.set.name).map oldOf).filter fun s => !s.deleting)
    cases hl : e.cleanupSort (((others w.sets c.set.name).map oldOf).filter fun s => !s.deleting) with
    | nil =>
      rw [hl] at hp
      have := hp.length_eq
      rw [hlen] at this
      simp only [List.length_nil] at this
      omega
    | cons o rest =>
      have hm : o ∈ ((others w.sets c.set.name).map oldOf).filter fun s => !s.deleting := hp.mem_iff.1 (by rw [hl]; exact .head _)
      obtain ⟨hm1, hm2⟩ := List.mem_filter.1 hm
      obtain ⟨f, hf, rfl⟩ := List.mem_map.1 hm1
      obtain ⟨hfm, hfn⟩ := mem_others.1 hf
      have hz0 := hz f hfm hfn
      have hst := (hr f.set.name f hfm rfl).1
      have hob := hobs f hfm
      have hnd : f.deleting = false := by simpa [oldOf] using hm2
      refine ⟨oldOf f, ?_, hnd, hm1⟩
      rw [Rollback.cleanupLoop, if_neg ?_, if_neg (by rw [hfail]; simp)]
      · exact .head _
      · rintro (h | h | h | h)
        · exact h (hst.trans hz0)
        · exact h hz0
        · have h : f.generation > f.observed := h
          omega
        · rw [show (oldOf f).deleting = f.deleting from rfl, hnd] at h; cases h
  obtain ⟨o, ho, hon, hom⟩ := hdel
  obtain ⟨f, hf, rfl⟩ := List.mem_map.1 hom
  obtain ⟨hfm, hfn⟩ := mem_others.1 hf
  -- so it is marked afterwards, although the marks are the same
  obtain ⟨g, hg, g1, _, g3⟩ := keys_mem hk2 hfm
  unfold cleanup at hg
  obtain ⟨x, _, rfl⟩ := List.mem_map.1 hg
  have hany : ∀ y : FSet, y.set.name = f.set.name →
      (((Rollback.cleanup e.cleanupSort e.cleanupFails d.limit ((others w.sets c.set.name).map oldOf)).deleted.filter fun o => !(e.cleanupFails o && e.cleanupLost o)).any
        fun o => o.name == y.set.name) = true := fun y hy => by
    refine List.any_eq_true.2 ⟨oldOf f, List.mem_filter.2 ⟨ho, by rw [hfail]; rfl⟩, ?_⟩
    rw [hy]
    simp [oldOf]
  have hxn : x.set.name = f.set.name := by
    rw [← g1]
    split <;> rfl
  rw [if_pos (hany x hxn)] at g3
  have : f.deleting = false := hon
  rw [this] at g3
  cases g3

/-- a run that cleans up gets on, or there is nothing to clean up -/
theorem cleans_less {d : FDep} (hd : Rolls d) (hsel : d.selectsAll = false) {I : World → Prop} (D : Drives d I fun l => remaining d l + slack d l) {w w' : World} (hw : I w)
    (hs : Sound d w.sets) (ht : Target d w.sets) (hf : Filled w)
    (hr : ∀ n, Right n w) {k : Int} (hk : d.limit = some k) (h : Cleans d w w') :
    remaining d w'.sets + slack d w'.sets < remaining d w.sets + slack d w.sets ∨ (unmarked w.sets : Int) ≤ max k 0 + 1 := by
  have hfr := D.fresh hw
  obtain ⟨_, hstep, _⟩ := D.step hw h.step
  rcases hstep with hlt | ⟨heq, hkeys⟩
  · exact .inl hlt
  by_cases hle : (unmarked w.sets : Int) ≤ max k 0 + 1
  · exact .inr hle
  left
  have hsaid := (end_said hs.unique (D.nonneg hw) hfr ht hf hr).2
  obtain ⟨c, hc, hsize, hz⟩ := ht
  have hcm := cur_mem hc
  obtain ⟨e, h1, h2, h3, h4, h5, hreach, hfail, hobs, rfl⟩ := h
  replace hreach := hreach hsaid
  have hrec := reconcile_smooth hd.toPlain hsel h2 w.sets
  have hsl := (step_slack hd.toPlain hs.unique hfr (.good e h1 h2 h3 h4 h5)).2
  have hsl' : slack d (w.deploy d e w.sets).sets ≤ slack d w.sets := by
    rcases hsl with ⟨⟨n, hn⟩, _⟩ | ⟨_, h, _⟩
    · cases hn
    · exact h
  have hrem := (agree_same (d := d) (restore_agree w.sets (reconcile d e w.sets).sets)).1
  rcases scaleOrRoll_cases hd (e := e) hs with ⟨n, hn, hwr, hout⟩ | ⟨n, hn, hwr, hout⟩ | ⟨hn, _⟩
  · -- the current set is written
    rw [h2.set, if_pos rfl] at hout
    have := (write_shrinks hd hs hn hwr).2
    have e1 : remaining d (w.deploy d e w.sets).sets = remaining d (writeCur d w.sets n) := by
      rw [← hout, ← hrec]; exact hrem
    omega
  · rw [hc] at hn
    cases hn
    rcases hout with ⟨hdep, _⟩ | ⟨h0, hpos, _⟩ | hout
    · rw [h2.dep] at hdep; cases hdep
    · rw [h0 c hcm] at hsize; omega
    · -- the clean-up
      exfalso
      have hroll : rolloutRolling d e w.sets = cleanup d e (others w.sets c.set.name) (rolled d e.rolling w.sets c) := by
        unfold rolloutRolling
        rw [getNew_cur hc, sync_rest hwr, h2.dep]
        dsimp only
        rw [if_pos rfl, if_neg (by simp), curSet_eq hs.unique hcm]
        unfold rolloutCleanup
        dsimp only
        rw [if_pos hreach]
        rfl
      refine clean_marks hs.unique h1 hfail hobs hcm (hfr c hc) hz hr hk hle (x := rolled d e.rolling w.sets c) ?_
      rw [← hroll, ← hout, ← hrec, ← still_keys (restore_still w.sets (reconcile d e w.sets).sets)]
      exact hkeys
  · rw [hc] at hn; cases hn

/-- while nothing remains to be done, nothing changes -/
theorem keys_steps {d : FDep} {I : World → Prop} {m : List FSet → Nat} (D : Drives d I m) {w w' : World} {ls : List Lab} (hw : I w) (h : Steps d w ls w') (hm : m w'.sets = m w.sets) :
    keys w'.sets = keys w.sets := by
  induction h with
  | nil _ => rfl
  | @cons w w1 w2 l ls h1 h2 ih =>
    obtain ⟨a1, a2, _⟩ := D.step hw h1
    have b := (steps_keep D a1 h2).2.1
    rcases a2 with a2 | ⟨a2, a3⟩
    · omega
    · rw [ih a1 (by omega), a3]

theorem end_room {d : FDep} {I : World → Prop} {m : List FSet → Nat} (D : Drives d I m) {w w' : World} {ls : List Lab} (hw : I w) (ht : Target d w.sets) (h : Steps d w ls w') :
    w'.sets.length ≤ w.sets.length := by
  have hv : ∀ {l : List FSet}, Target d l → vacant d l = 0 := fun ⟨c, hc, _⟩ => by unfold vacant; rw [hc]; rfl
  induction h with
  | nil _ => exact Nat.le_refl _
  | @cons w w1 w2 l ls h1 h2 ih =>
    have ht1 := D.keep hw ht h1
    have := ih (D.step hw h1).1 ht1
    have hr : room d w1.sets ≤ room d w.sets := by
      rcases (step_slack D.plain (D.unique hw) (D.fresh hw) h1).2 with ⟨_, _, h⟩ | ⟨_, _, h, _⟩ <;> omega
    unfold room at hr
    rw [hv ht, hv ht1] at hr
    omega

theorem unmarked_keys {l l' : List FSet} (h : keys l' = keys l) : unmarked l' = unmarked l := by
  have : ∀ l : List FSet, unmarked l = (keys l).countP fun x => !x.2.2 := fun l => by unfold unmarked keys; rw [List.countP_map]; rfl
  rw [this, this, h]

/-- a run leaves no request for another size pending that was not -/
theorem Outcome.pending {d : FDep} (hd : Plain d) {e : Dispatch.Env} {G : Prop} {l out : List FSet} (hu : Dispatch.Unique l) (h : Outcome d e l G out) (hp : pending d l = false) : pending d out = false := by
  have alike : ∀ {m out : List FSet}, List.Forall₂ Alike m out → Dispatch.pending d m = false → Dispatch.pending d out = false := fun h hp => by
    rw [pending_congr (fun a b hr => ⟨hr.spec, hr.desired⟩) h, hp]
  cases h with
  | same _ h => exact alike h hp
  | write n hn hw => rw [pending_congr (fun a b hr => by rw [hr.1]; exact ⟨rfl, rfl⟩) (written_forall2 (d := d) hu (cur_mem hn)), hp]
  | target n t hn hw ht hz hor h1 h2 => exact alike h2 (target_pending hd hz h1)
  | zero h1 _ _ h2 =>
    refine alike h2 ?_
    cases hx : Dispatch.pending d _ with
    | false => rfl
    | true =>
      rw [pending_forall2 (fun a b hr h0 _ => ?_) h1 hx] at hp
      · cases hp
      · rcases hr.or with h | ⟨_, _, h⟩
        · rw [h] at h0 ⊢; exact ⟨h0, rfl⟩
        · rw [h] at h0; exact absurd h0 (by unfold scaledTo; simp)
  | create hn hz _ h =>
    refine alike h ?_
    cases hx : Dispatch.pending d (l ++ [newSet d e l d.spec.replicas]) with
    | false => rfl
    | true =>
      obtain ⟨b, hb, h1, v, h2, h3⟩ := pending_iff.1 hx
      rcases List.mem_append.1 hb with hb | hb
      · have := hz b hb; omega
      · rw [List.mem_singleton.1 hb] at h2
        change (some (Scale.desiredText d.spec)).bind atoi = some v at h2
        rw [Option.bind_some, Scale.desiredText_reads d.spec hd.size.1 hd.size.2] at h2
        cases h2; exact absurd rfl h3

/-- the same for a deployment that recreates; there a request for another size may still be pending, but not after the next run -/
theorem recreate_less {d : FDep} (hd : Plain d) (hrec : d.spec.strategy = .recreate) (hsel : d.selectsAll = false) {w w' : World} (hw : Apart d w) (ht : Target d w.sets)
    (hf : Filled w) (hr : ∀ n, Right n w) {k : Int} (hk : d.limit = some k) (h : Cleans d w w') :
    rank d w'.sets + slack d w'.sets < rank d w.sets + slack d w.sets ∨ (unmarked w.sets : Int) ≤ max k 0 + 1 ∨ pending d w.sets = true ∧ pending d w'.sets = false := by
  have D := recreate_drives hd hrec hsel
  have hs := hw.loose.base
  have hfr := D.fresh hw
  obtain ⟨_, hstep, _⟩ := D.step hw h.step
  rcases hstep with hlt | ⟨heq, hkeys⟩
  · exact .inl hlt
  by_cases hle : (unmarked w.sets : Int) ≤ max k 0 + 1
  · exact .inr (.inl hle)
  have hsaid := (end_said hs.unique (D.nonneg hw) hfr ht hf hr).2
  obtain ⟨c, hc, hsize, hz⟩ := ht
  have hcm := cur_mem hc
  obtain ⟨e, h1, h2, h3, h4, h5, hreach, hfail, hobs, rfl⟩ := h
  replace hreach := hreach hsaid
  have hout := reconcile_smooth hd hsel h2 w.sets
  have hsl := (step_slack hd hs.unique hfr (.good e h1 h2 h3 h4 h5)).2
  have hsl' : slack d (w.deploy d e w.sets).sets ≤ slack d w.sets := by
    rcases hsl with ⟨⟨n, hn⟩, _⟩ | ⟨_, h, _⟩
    · cases hn
    · exact h
  have hev : List.Forall₂ Even _ (w.deploy d e w.sets).sets := (restore_agree w.sets (reconcile d e w.sets).sets).imp fun _ _ h => h.even
  have hrank := (even_rank (d := d) hev).1
  have hg : e.Good w.sets := by
    refine ⟨h2, h4, fun f hfm h0 => ⟨by rw [(hr f.set.name f hfm rfl).1, h0], ?_⟩⟩
    rw [h5 hrec, (hf f hfm).desired.1]
    have := goal_le f
    rw [h0] at this
    omega
  rcases scaleOrRoll_recreate hrec (e := e) hs with ⟨n, hn, hwr, ho⟩ | ⟨n, hn, hwr, ⟨hdep, _⟩ | ⟨hdep, hscale, ho⟩ | ⟨hdep, hscale, ho⟩⟩ | ⟨hn, _⟩
  · left
    rw [h2.set, if_pos rfl] at ho
    have hpos : 0 < rank d w.sets := by rw [rank_some hn, hwr, Bool.toNat_true]; omega
    have := (better_write hd (G := True) hs hw.single hn hwr).good trivial hpos
    rw [hout, ho] at hrank
    omega
  · rw [h2.dep] at hdep; cases hdep
  · rw [hc] at hn
    cases hn
    rcases (event_iff hs.unique hcm).1 hscale with ⟨h0, hpos⟩ | hp
    · exact absurd (by omega) (h0 c hcm)
    · refine .inr (.inr ⟨hp, ?_⟩)
      rw [even_pending hev, hout, ho]
      exact (sync_outcome hd h1 hs hw.single hc hwr hdep hscale).2 hg
  · rw [hc] at hn
    cases hn
    exfalso
    have hroll : ∃ x, rolloutRecreate d e w.sets = cleanup d e (others w.sets c.set.name) x := by
      unfold rolloutRecreate
      rw [getNew_cur hc, sync_rest hwr, hdep]
      dsimp only
      rw [if_pos rfl, if_neg (by simp), curSet_eq hs.unique hcm]
      simp only [Option.isNone_some, Bool.false_and, Bool.false_eq_true, if_false]
      unfold rolloutCleanup
      rw [if_pos hreach]
      exact ⟨_, rfl⟩
    obtain ⟨x, hroll⟩ := hroll
    refine clean_marks hs.unique h1 hfail hobs hcm (hfr c hc) hz hr hk hle (x := x) ?_
    rw [← hroll, ← ho, ← hout, ← still_keys (restore_still w.sets (reconcile d e w.sets).sets)]
    exact hkeys
  · rw [hc] at hn; cases hn

/-- once no request is pending, none is -/
theorem pending_step {d : FDep} (hd : Plain d) (hrec : d.spec.strategy = .recreate) {w w' : World} {l : Lab} (hw : Apart d w) (hp : pending d w.sets = false) (h : Step d w l w') :
    pending d w'.sets = false := by
  have deploy : ∀ (e : Dispatch.Env) (seen : List FSet), Sees w.sets seen → e.Fine seen → pending d (w.deploy d e seen).sets = false := by
    intro e seen hsee he
    have hev : List.Forall₂ Even w.sets seen := (sees_agree hsee).imp fun _ _ h => h.even
    have hback : List.Forall₂ Even _ (w.deploy d e seen).sets := (restore_agree w.sets (reconcile d e seen).sets).imp fun _ _ h => h.even
    rw [even_pending hback]
    have hq : pending d seen = false := by rw [even_pending hev, hp]
    rcases reconcile_rolls hd e seen with h | h
    · rw [h]; exact hq
    · rw [h]; exact Outcome.pending hd (sees_loose hsee hw.loose).base.unique (recreate_outcome hd hrec he (sees_loose hsee hw.loose).base (even_single hev hw.single)) hq
  cases h with
  | machines f l s' hf hst => exact hp
  | status f hf => rw [even_pending ((report_agree w f.set.name).imp fun _ _ h => h.even), hp]
  | gone f hf _ _ =>
    cases hx : pending d (w.drop f.set.name).sets with
    | false => rfl
    | true => rw [drop_pending hx] at hp; cases hp
  | poor e seen h1 h2 => exact deploy e seen h1 h2
  | good e h1 _ _ _ _ => exact deploy e w.sets (sees_refl hw.loose.base) h1

/-- If every run that cleans up gets on, or finds no more sets than the limit says, or brings about something that lasts: then in the end there are no more. -/
theorem limited {d : FDep} {I P : World → Prop} {m : List FSet → Nat} (D : Drives d I m) {s : Nat → World} (hg : Goes d s) {k : Nat} (hk : I (s k) ∧ Target d (s k).sets ∧ Filled (s k))
    {limit : Int} (keep : ∀ {w w' l}, I w → P w → Step d w l w' → P w')
    (clean : ∀ {w w'}, I w → Target d w.sets → Filled w → (∀ n, Right n w) → Cleans d w w' → m w'.sets < m w.sets ∨ (unmarked w.sets : Int) ≤ limit + 1 ∨ ¬ P w ∧ P w')
    (hclean : ∀ i, ∃ j, i ≤ j ∧ Cleaned d (s j) (s (j + 1))) : ∃ n, ∀ j, n ≤ j → ∀ ls w', Steps d (s j) ls w' → (w'.sets.length : Int) ≤ limit + 1 := by
  have hat : ∀ j, k ≤ j → I (s j) ∧ Target d (s j).sets ∧ Filled (s j) := fun j hj => by
    have he := hg.epochs (j - k) k
    rw [show k + (j - k) = j by omega] at he
    exact end_epochs D hk.1 hk.2.1 hk.2.2 he
  have keeps : ∀ {w w' ls}, I w → P w → Steps d w ls w' → P w' := by
    intro w w' ls hw hp h
    induction h with
    | nil _ => exact hp
    | cons h1 _ ih => exact ih (D.step hw h1).1 (keep hw hp h1)
  have lasts : ∀ j, k ≤ j → P (s j) → ∀ n, P (s (j + n)) := by
    intro j hj hp n
    induction n with
    | zero => exact hp
    | succ n ih =>
      obtain ⟨ls, h, _⟩ := hg (j + n)
      exact keeps (hat _ (by omega)).1 ih h
  -- nothing remains to be done
  obtain ⟨K, hK, hconst⟩ := settles (f := fun i => m (s i).sets) (k := k) fun i hi => by
    obtain ⟨ls, h, _⟩ := hg i
    exact (steps_keep D (hat i hi).1 h).2.1
  -- a run that cleans up
  have once : ∀ j, K + 1 ≤ j → Cleaned d (s j) (s (j + 1)) → (unmarked (s j).sets : Int) ≤ limit + 1 ∨ ¬ P (s j) ∧ P (s (j + 1)) := by
    rintro j hj ⟨ls1, a, b, ls2, s1, hc, s2⟩
    obtain ⟨r0, t0, f0⟩ := hat j (by omega)
    have hright : ∀ n, Right n (s j) := fun n => by
      have := hg (j - 1)
      rw [show j - 1 + 1 = j by omega] at this
      obtain ⟨x, y, z⟩ := hat (j - 1) (by omega)
      exact end_epoch_right D x y z this n
    obtain ⟨r1, t1, f1⟩ := end_steps D r0 t0 f0 s1
    have hra : ∀ n, Right n a := fun n => end_steps_right D r0 t0 f0 s1 (.inl (hright n))
    have m1 := (steps_keep D r0 s1).2.1
    have r2 := D.step r1 hc.step
    have m2 := (steps_keep D r2.1 s2).2.1
    have m3 : m b.sets ≤ m a.sets := by
      rcases r2.2.1 with h | h
      · exact Nat.le_of_lt h
      · exact Nat.le_of_eq h.1
    have c0 := hconst j (by omega)
    have c1 := hconst (j + 1) (by omega)
    rcases clean r1 t1 f1 hra hc with h | h | ⟨h, h'⟩
    · omega
    · left
      rw [unmarked_keys (keys_steps D r0 s1 (by omega))] at h
      exact h
    · exact .inr ⟨fun hp => h (keeps r0 hp s1), keeps r2.1 h' s2⟩
  obtain ⟨j, hj, hun⟩ : ∃ j, K + 1 ≤ j ∧ (unmarked (s j).sets : Int) ≤ limit + 1 := by
    obtain ⟨j, hj, hc⟩ := hclean (K + 1)
    rcases once j hj hc with h | ⟨_, h⟩
    · exact ⟨j, hj, h⟩
    · obtain ⟨i, hi, hc⟩ := hclean (j + 1)
      rcases once i (by omega) hc with h' | ⟨h', _⟩
      · exact ⟨i, by omega, h'⟩
      · have := lasts (j + 1) (by omega) h (i - (j + 1))
        rw [show j + 1 + (i - (j + 1)) = i by omega] at this
        exact absurd this h'
  obtain ⟨r0, t0, f0⟩ := hat j (by omega)
  -- no set is being deleted
  have hq : ∀ f ∈ (s j).sets, f.deleting = false := by
    intro f hf
    cases hdel : f.deleting with
    | false => rfl
    | true =>
      exfalso
      obtain ⟨ls, h, _, hall⟩ := hg j
      have hgone : .gone f.set.name ∈ ls := by
        rcases hall f hf with h | ⟨h, _⟩
        · exact h
        · refine absurd ?_ (h hdel)
          have := (f0 f hf).desired.1
          unfold Fleet.goal demand at this
          dsimp only at this
          rw [hdel] at this
          exact List.length_eq_zero_iff.1 (by simpa using this)
      have := steps_gone D r0 h hgone
      have c0 := hconst j (by omega)
      have c1 := hconst (j + 1) (by omega)
      omega
  have hlen : unmarked (s j).sets = (s j).sets.length := List.countP_eq_length.2 fun f hf => by rw [hq f hf]; rfl
  refine ⟨j, fun i hi ls w' h => ?_⟩
  have he := hg.epochs (i - j) j
  rw [show j + (i - j) = i by omega] at he
  have hle : ∀ {n : Nat} {w w1 : World}, I w → Target d w.sets → Filled w → Epochs d n w w1 → w1.sets.length ≤ w.sets.length := by
    intro n w w1 hw ht hf h
    induction h with
    | zero _ => exact Nat.le_refl _
    | succ h1 _ ih =>
      obtain ⟨ls, h1, _⟩ := h1
      obtain ⟨x, y, z⟩ := end_steps D hw ht hf h1
      exact Nat.le_trans (ih x y z) (end_room D hw ht h1)
  have l1 := hle r0 t0 f0 he
  obtain ⟨x, y, _⟩ := hat i (by omega)
  have l2 := end_room D x y h
  omega

/-! ### Theorems -/

/-- **C143**: In every fair execution of a rolling update after any history, in which again and again a run of the deployment controller sees everything up to date and all its
calls succeed, the time comes from which on there are no more machine sets than the history limit allows, besides the current one; also being deleted there is none any more. -/
theorem C143_history_limit (d : FDep) (s : Nat → World) (hh : History d (s 0)) (hd : Rolls d) (hsel : d.selectsAll = false) (surge unav : Int)
    (hsu : scaledValue d.spec.maxSurge d.spec.replicas true = some surge) (hun : scaledValue d.spec.maxUnavailable d.spec.replicas false = some unav) (h0 : 0 ≤ surge)
    (h1 : 0 ≤ unav) (hs : ∀ i, Epoch d (s i) (s (i + 1))) (limit : Int) (hlim : d.limit = some limit) (hpos : 0 ≤ limit)
    (hclean : ∀ i, ∃ j, i ≤ j ∧ Cleaned d (s j) (s (j + 1))) :
    ∃ n, ∀ j, n ≤ j → ∀ ls w', Steps d (s j) ls w' → (w'.sets.length : Int) ≤ limit + 1 := by
  obtain ⟨k, hk⟩ := rolls_end hd hsel hsu hun h0 h1 hs hh.open
  have D := rolls_drives hd hsel hsu hun h0 h1
  refine limited D hs hk (P := fun _ => True) (fun _ _ _ => trivial) (fun hw ht hf hr hc => ?_) hclean
  rcases cleans_less hd hsel D hw hw.sound ht hf hr hlim hc with h | h
  · exact .inl h
  · exact .inr (.inl (by omega))

/-- **C143**: The same for a deployment whose strategy is Recreate all the time. -/
theorem C143_recreate (d : FDep) (s : Nat → World) (hh : Recreated d (s 0)) (hp : d.paused = false) (hsel : d.selectsAll = false) (hs : ∀ i, Epoch d (s i) (s (i + 1)))
    (limit : Int) (hlim : d.limit = some limit) (hpos : 0 ≤ limit) (hclean : ∀ i, ∃ j, i ≤ j ∧ Cleaned d (s j) (s (j + 1))) :
    ∃ n, ∀ j, n ≤ j → ∀ ls w', Steps d (s j) ls w' → (w'.sets.length : Int) ≤ limit + 1 := by
  obtain ⟨h1, h2, h3⟩ := hh.history
  have hv := h1.open.valid
  have hd : Plain d := ⟨hp, hv.alive, h3, hv.size, hv.keys, hv.labels⟩
  obtain ⟨k, hk⟩ := recreate_end hs h1 hd h2 hsel (fun _ => hh.one)
  refine limited (recreate_drives hd h2 hsel) hs hk (P := fun w => pending d w.sets = false) (fun hw hp h => pending_step hd h2 hw hp h) (fun hw ht hf hr hc => ?_) hclean
  rcases recreate_less hd h2 hsel hw ht hf hr hlim hc with h | h | ⟨h, h'⟩
  · exact .inl h
  · exact .inr (.inl (by omega))
  · exact .inr (.inr ⟨by rw [h]; simp, h'⟩)

theorem report_all (d : FDep) (ns : List String) (w : World) :
    ∃ ls w', Steps d w ls w' ∧ w'.fleet = w.fleet ∧ ∀ f ∈ w'.sets, f.generation ≤ f.observed ∨ (f ∈ w.sets ∧ f.set.name ∉ ns) := by
  induction ns generalizing w with
  | nil => exact ⟨[], w, .nil w, rfl, fun f hf => .inr ⟨hf, by simp⟩⟩
  | cons n ns ih =>
    by_cases hx : ∃ f ∈ w.sets, f.set.name = n
    · obtain ⟨f, hf, rfl⟩ := hx
      obtain ⟨ls, w', h1, h2, h3⟩ := ih (w.report f.set.name)
      refine ⟨_, w', .cons (.status f hf) h1, h2, fun g hg => ?_⟩
      rcases h3 g hg with h | ⟨h, hn⟩
      · exact .inl h
      · unfold World.report at h
        obtain ⟨x, hx, rfl⟩ := List.mem_map.1 h
        by_cases he : x.set.name = f.set.name
        · rw [if_pos he]
          exact .inl (Int.le_refl _)
        · rw [if_neg he] at hn ⊢
          exact .inr ⟨hx, by simp [he, hn]⟩
    · obtain ⟨ls, w', h1, h2, h3⟩ := ih w
      refine ⟨ls, w', h1, h2, fun g hg => ?_⟩
      rcases h3 g hg with h | ⟨h, hn⟩
      · exact .inl h
      · refine .inr ⟨h, ?_⟩
        rw [List.mem_cons]
        rintro (he | he)
        · exact hx ⟨g, h, he⟩
        · exact hn he

/-- C143: such executions exist after any history. -/
theorem C143_possible (d : FDep) (w : World) (hh : History d w) :
    ∃ s : Nat → World, s 0 = w ∧ (∀ i, Epoch d (s i) (s (i + 1))) ∧ ∀ i, Cleaned d (s i) (s (i + 1)) := by
  have hP : ∀ w : World, Open d w → ∃ w', (Epoch d w w' ∧ Cleaned d w w') ∧ Open d w' := by
    intro w hw
    obtain ⟨w1, ls, h1, h2, h3⟩ := epoch_possible d hw.loose.base.unique hw.start
    obtain ⟨ls2, w2, h4, h5, h6⟩ := report_all d (w1.sets.map (·.set.name)) w1
    obtain ⟨nm, hnm⟩ := fresh_name w2.sets
    have hfine : ({ fresh := nm, hash := "1", machines := fun n => (w2.fleet n).ms.length, cleanupReached := true } : Dispatch.Env).Fine w2.sets :=
      fine_of _ _ rfl rfl rfl (.inl rfl) hnm rfl (show ("1" : String) ≠ "" by decide)
    have hc : Cleans d w2 _ := ⟨_, hfine, ⟨rfl, rfl, rfl, rfl, rfl, hfine.newest, fun _ => rfl⟩, ⟨rfl, rfl, fun _ => rfl, fun _ => rfl⟩, rfl, fun _ _ => rfl, fun _ => rfl, fun _ => rfl,
      fun f hf => by
        rcases h6 f hf with h | ⟨h, hn⟩
        · exact h
        · exact absurd (List.mem_map.2 ⟨f, h, rfl⟩) hn, rfl⟩
    have he : Epoch d w _ := ⟨ls ++ (ls2 ++ [.deploy true]), h1.append (h4.append (.cons hc.step (.nil _))), List.mem_append_left _ h2, fun f hf => by
      rcases h3 f hf with h | ⟨a, b, c, e⟩
      · exact .inl (List.mem_append_left _ h)
      · refine .inr ⟨a, List.mem_append_left _ b, List.mem_append_left _ c, fun m hm m' hm' x y => List.mem_append_left _ (e m hm m' ?_ x y)⟩
        rw [← h5]
        exact hm'⟩
    exact ⟨_, ⟨he, _, _, _, _, h1.append h4, hc, .nil _⟩, epochs_open hw (.succ he (.zero _))⟩
  let next : { w // Open d w } → { w // Open d w } := fun x => ⟨Classical.choose (hP x.1 x.2), (Classical.choose_spec (hP x.1 x.2)).2⟩
  let s : Nat → { w // Open d w } := fun i => Nat.rec (motive := fun _ => { w // Open d w }) ⟨w, hh.open⟩ (fun _ x => next x) i
  exact ⟨fun i => (s i).1, rfl, fun i => (Classical.choose_spec (hP (s i).1 (s i).2)).1.1, fun i => (Classical.choose_spec (hP (s i).1 (s i).2)).1.2⟩

/-! ### A concrete case -/

/-- three machines of the template v3 are wanted, and no old sets -/
def noHistory : FDep := { zDep 3 "v3" with limit := some 0 }

/-- in the middle of one rollout, with ten machines in each of two sets, the template and the size are changed: a state can be reached in which only the new set is left -/
example : z2.sets.length = 2 ∧ ∃ n w', Epochs noHistory n z2 w' ∧ RolledOut noHistory w' ∧ w'.sets.length ≤ 1 := by
  refine ⟨by decide +kernel, ?_⟩
  have hh : History noHistory z2 := z2_history.edit ⟨rfl, by decide, ⟨by decide, by decide⟩, List.nodup_nil, List.nodup_nil, rfl, fun k v h => by cases h⟩ (fun h => absurd h (by decide))
  have hd : Rolls noHistory := ⟨⟨rfl, rfl, rfl, by decide, List.nodup_nil, List.nodup_nil⟩, rfl⟩
  obtain ⟨s, e0, hs, hc⟩ := C143_possible noHistory z2 hh
  obtain ⟨n, hn⟩ := C143_history_limit noHistory s (by rw [e0]; exact hh) hd rfl 3 0 (by decide +kernel) (by decide +kernel) (by decide) (by decide) hs 0 rfl (by decide)
    fun i => ⟨i, Nat.le_refl _, hc i⟩
  obtain ⟨m, hm⟩ := C102_eventually noHistory s (by rw [e0]; exact hh) hd rfl 3 0 (by decide +kernel) (by decide +kernel) (by decide) (by decide) hs
  have he := Goes.epochs hs (n + m) 0
  rw [e0, Nat.zero_add] at he
  have := hn (n + m) (by omega) [] _ (.nil _)
  exact ⟨_, _, he, hm (n + m) (by omega) [] _ (.nil _), by omega⟩

/-- the same with the strategy Recreate: `t` is wanted -/
def againDep (t : String) : FDep := { spec := { replicas := 3, maxSurge := none, maxUnavailable := none, strategy := .recreate }, template := { body := t }, limit := some 0 }

theorem againDep_valid (t : String) : Valid (againDep t) := ⟨rfl, (by decide : (0 : Int) ≤ 3 ∧ (3 : Int) < 2 ^ 63),
  ⟨(by decide : 0 ≤ maxSurge (againDep "").spec), (by decide : (againDep "").spec.replicas + maxSurge (againDep "").spec < 2 ^ 63)⟩, List.nodup_nil, List.nodup_nil, rfl, fun k v h => by cases h⟩

/-- three machines of the template v1 are wanted, and the controller has run -/
def again1 : World := (noMachines []).deploy (againDep "v1") (zEnv "a" "1") []

example : again1.sets.map (fun f => (f.tmpl.body, f.set.spec)) = [("v1", 3)] ∧
    ∃ n w', Epochs (againDep "v2") n again1 w' ∧ Complete (againDep "v2") w' ∧ w'.sets.length ≤ 1 := by
  refine ⟨by decide +kernel, ?_⟩
  have h0 : Recreated (againDep "v1") (noMachines []) := .created _ (againDep_valid _) rfl rfl
  have h1 : Recreated (againDep "v1") again1 := h0.run (e := zEnv "a" "1") .nil (fine_of _ _ rfl rfl rfl (.inl rfl) (by simp) rfl (show ("1" : String) ≠ "" by decide))
  have hh : Recreated (againDep "v2") again1 := h1.edit (againDep_valid _) rfl rfl (fun h => absurd h (by decide))
  obtain ⟨s, e0, hs, hc⟩ := C143_possible _ _ hh.history.1
  obtain ⟨n, hn⟩ := C143_recreate _ s (by rw [e0]; exact hh) rfl rfl hs 0 rfl (by decide) fun i => ⟨i, Nat.le_refl _, hc i⟩
  obtain ⟨m, hm⟩ := C142_recreate _ s (by rw [e0]; exact hh) rfl rfl hs
  have he := Goes.epochs hs (n + m) 0
  rw [e0, Nat.zero_add] at he
  have := hn (n + m) (by omega) [] _ (.nil _)
  exact ⟨_, _, he, (hm (n + m) (by omega) [] _ (.nil _)).1, by omega⟩

end MCM.World
