import Verif.Model.InPlace
import Verif.Lemmas.Twin
import Verif.Props.SyncMachines
import Verif.Props.NodeSync
/-!
# C128 – an edit of node template, configuration, class kind, annotations or `minReadySeconds` reaches machines and nodes and replaces no machine
-/
namespace MCM.InPlace
open MCM MCM.Template MCM.Dispatch

/-! ## Independent specification -/

/-- `d'` is `d` with another node template, configuration, class kind, other annotations or another `minReadySeconds` -/
def EditOf (d d' : FDep) : Prop := ∃ template config kind annotations minReady, d' =
  { d with template := { d.template with nodeTemplate := template, config := config, classKind := kind }, annotations := annotations, minReady := minReady }

/-- the sets agree in name, size, template (apart from the parts changed in place), reported numbers and deletion mark -/
structure Twin (a b : FSet) : Prop where
  /-- name, size, replica annotations, available machines, creation time -/
  set : b.set = a.set
  labels : b.tmpl.labels = a.tmpl.labels
  body : b.tmpl.body = a.tmpl.body
  status : b.status = a.status
  generation : b.generation = a.generation
  observed : b.observed = a.observed
  deleting : b.deleting = a.deleting

/-- the same sets in this sense -/
abbrev Twins : List FSet → List FSet → Prop := List.Forall₂ Twin

/-- the revision of the set is absent, empty or a number -/
def Revised (f : FSet) : Prop := ∀ s, List.lookup "deployment.kubernetes.io/revision" f.annotations = some s → s = "" ∨ ∃ r, atoi s = some r

/-- the run gets through to the update of the machine set of the template -/
structure Through (d : FDep) (e : Env) : Prop where
  valid : e.valid = true
  selector : d.selectsAll = false
  list : e.listOk = true
  pre : e.preOk = true
  set : e.setOk = true

/-- the deployment is neither deleted nor rolled back -/
structure Live (d : FDep) : Prop where
  alive : d.deleting = false
  noRollback : d.rollbackTo = none

/-- the node has everything the template says, and nothing is recorded that the template does not have -/
def Settled (t : NodeSync.Template) (n : NodeSync.Node) : Prop :=
  (∀ k v, t.at k = some v → n.at k = some v) ∧ ∀ k, ((NodeSync.recorded n).at k).isSome = true → (t.at k).isSome = true

/-! ## Lemmas -/

theorem EditOf.edited {d d' : FDep} (h : EditOf d d') : Edited d d' := by
  obtain ⟨_, _, _, _, _, rfl⟩ := h
  exact ⟨rfl, rfl, rfl, rfl, rfl, rfl, rfl, rfl, rfl⟩

theorem twin_erase {a b : FSet} : Twin a b ↔ erase b = erase a := by
  constructor
  · intro h
    unfold erase
    rw [h.set, h.labels, h.body, h.status, h.generation, h.observed, h.deleting]
  · intro h
    exact ⟨by have := congrArg FSet.set h; exact this, by have := congrArg (fun f : FSet => f.tmpl.labels) h; exact this,
      by have := congrArg (fun f : FSet => f.tmpl.body) h; exact this, by have := congrArg FSet.status h; exact this,
      by have := congrArg FSet.generation h; exact this, by have := congrArg FSet.observed h; exact this, by have := congrArg FSet.deleting h; exact this⟩

theorem twins_erase {l l' : List FSet} : Twins l l' ↔ l'.map erase = l.map erase := by
  constructor
  · intro h
    induction h with
    | nil => rfl
    | cons hr _ ih => rw [List.map_cons, List.map_cons, twin_erase.1 hr, ih]
  · intro h
    induction l generalizing l' with
    | nil => rw [List.map_nil, List.map_eq_nil_iff] at h; subst h; exact .nil
    | cons a l ih =>
      cases l' with
      | nil => cases h
      | cons b l' =>
        rw [List.map_cons, List.map_cons, List.cons.injEq] at h
        exact .cons (twin_erase.2 h.1) (ih h.2)

theorem terminate_erase (e : Env) {l l' : List FSet} (h : l'.map erase = l.map erase) : (terminate e l').map erase = (terminate e l).map erase := by
  have hg : ∀ f : FSet, erase (if e.deleteOk f.set.name then { f with deleting := true } else f) =
      if e.deleteOk (erase f).set.name then { erase f with deleting := true } else erase f := by
    intro f
    show _ = if e.deleteOk f.set.name then { erase f with deleting := true } else erase f
    split <;> rfl
  unfold terminate
  rw [erase_map _ hg, erase_map _ hg, h]

/-! ## Sizes -/

/-- **C128**: a run for the edited deployment does to the sets exactly what the run for the unedited one does – the same sizes, the same sets created, the same sets marked for
deletion – or one of the two runs does nothing of that kind at all. Whatever fails, paused or not, deleted or not, with or without a rollback under way, and for either strategy. -/
theorem C128_no_replacement (d d' : FDep) (hd : EditOf d d') (e : Env) (l l' : List FSet) (hu : Dispatch.Unique l) (h : Twins l l') :
    Twins (reconcile d e l).sets (reconcile d' e l').sets ∨ Twins l (reconcile d e l).sets ∨ Twins l' (reconcile d' e l').sets := by
  have hE := hd.edited
  rw [twins_erase] at h
  rw [twins_erase, twins_erase, twins_erase]
  have hu' := unique_erase h hu
  unfold reconcile
  rw [hE.selectsAll, hE.deleting, hE.paused]
  split
  · exact .inl h
  split
  · exact .inl h
  split
  · exact .inl h
  split
  · refine .inl ?_
    unfold reconcileDeleting
    rw [hE.finalizer]
    split
    · exact h
    · cases l with
      | nil => rw [List.map_nil, List.map_eq_nil_iff] at h; subst h; rfl
      | cons a l =>
        cases l' with
        | nil => cases h
        | cons b l' =>
          dsimp only
          rw [getNew_false_erase d' e (terminate_unique e _ hu'), getNew_false_erase d e (terminate_unique e _ hu), terminate_erase e h]
  split
  · exact .inl h
  split
  · dsimp only
    have herr : ∀ (d : FDep) (l : List FSet), Dispatch.Unique l → (getNew d e false l).err = true → (sync d e l).map erase = l.map erase := by
      intro d l hu he
      unfold sync
      dsimp only
      rw [if_pos he]
      exact getNew_false_erase d e hu
    rcases getNew_like_or hE e hu h with h1 | h1 | h1
    · exact .inl (sync_like hE e h1)
    · exact .inr (.inl (herr d l hu h1))
    · exact .inr (.inr (herr d' l' hu' h1))
  · rw [hE.rollbackTo]
    cases d.rollbackTo with
    | some rv =>
      have hsets : ∀ (d : FDep) (l : List FSet), (rollback d e rv l).sets = (getNew d e true l).sets := by
        intro d l
        unfold rollback
        dsimp only
        split <;> rfl
      dsimp only
      rw [hsets, hsets]
      exact .inl (getNew_true_erase hE e hu h)
    | none =>
    dsimp only
    by_cases hq : Quiet d l
    · by_cases hq' : Quiet d' l'
      · exact .inl (scaleOrRoll_like hE e h hq hq')
      · exact .inr (.inr (scaleOrRoll_loud_erase e hu' hq'))
    · exact .inr (.inl (scaleOrRoll_loud_erase e hu hq))

/-- one run of the deployment controller, as far as the sets are concerned -/
abbrev run (d : FDep) (e : Env) (l : List FSet) : List FSet := (reconcile d e l).sets

/-- after at most one run that only writes the current set, runs are quiet -/
theorem soon_quiet {d : FDep} (hk : (d.annotations.map Prod.fst).Nodup) {e : Env} (hs : e.setOk = true) {l : List FSet} (hu : Dispatch.Unique l)
    (hrun : ∀ l, run d e l = scaleOrRoll d e l) : ∃ i, i ≤ 1 ∧ Quiet d ((run d e)^[i] l) ∧ ((run d e)^[i] l).map erase = l.map erase := by
  by_cases hq : Quiet d l
  · exact ⟨0, by omega, hq, rfl⟩
  · have hq' := hq
    unfold Quiet at hq'
    simp only [not_forall] at hq'
    obtain ⟨n, hn, hw⟩ := hq'
    have h1 : (run d e)^[1] l = writeCur d l n := by
      rw [Function.iterate_one, hrun, scaleOrRoll_loud e hn (by simpa using hw), if_pos hs]
    refine ⟨1, by omega, ?_, ?_⟩
    · rw [h1]; exact write_quiet hk hu hn
    · rw [h1]; exact writeCur_erase d l hu (cur_mem hn)

/-- **C128** (partial: no rollback is requested): the edit costs at most one run: after at most one run that changes nothing but the machine set of the template, the next run
does what the run for the unedited deployment does (after at most one such run of its own), if the update requests succeed. -/
theorem C128_one_more_run_partial (d d' : FDep) (hd : EditOf d d') (hr : d.rollbackTo = none) (hk : (d.annotations.map Prod.fst).Nodup)
    (hk' : (d'.annotations.map Prod.fst).Nodup) (e : Env) (hs : e.setOk = true) (hdep : e.depOk = true) (l l' : List FSet) (hu : Dispatch.Unique l) (h : Twins l l') :
    ∃ i j, i ≤ 1 ∧ j ≤ 1 ∧ Twins l ((run d e)^[i] l) ∧ Twins l' ((run d' e)^[j] l') ∧ Twins ((run d e)^[i + 1] l) ((run d' e)^[j + 1] l') := by
  have hE := hd.edited
  rw [twins_erase] at h
  have hu' := unique_erase h hu
  have hr' : d'.rollbackTo = none := hE.rollbackTo.trans hr
  have hrefl : ∀ l, Twins l l := fun l => twins_erase.2 rfl
  -- runs that do not write separately
  have stop : Twins (run d e l) (run d' e l') →
      ∃ i j, i ≤ 1 ∧ j ≤ 1 ∧ Twins l ((run d e)^[i] l) ∧ Twins l' ((run d' e)^[j] l') ∧ Twins ((run d e)^[i + 1] l) ((run d' e)^[j + 1] l') :=
    fun h => ⟨0, 0, by omega, by omega, hrefl l, hrefl l', h⟩
  by_cases hgo : e.valid = true ∧ d.selectsAll = false ∧ e.listOk = true ∧ d.deleting = false ∧ e.preOk = true ∧ d.paused = false
  · obtain ⟨g1, g2, g3, g4, g5, g6⟩ := hgo
    have hrun : ∀ l, run d e l = scaleOrRoll d e l := by
      intro l
      unfold run reconcile
      rw [g1, g2, g3, g4, g5, g6, hr]; rfl
    have hrun' : ∀ l, run d' e l = scaleOrRoll d' e l := by
      intro l
      unfold run reconcile
      rw [hE.selectsAll, hE.deleting, hE.paused, g1, g2, g3, g4, g5, g6, hr']; rfl
    obtain ⟨i, hi, q, x⟩ := soon_quiet hk hs hu hrun
    obtain ⟨j, hj, q', x'⟩ := soon_quiet hk' hs hu' hrun'
    refine ⟨i, j, hi, hj, twins_erase.2 x, twins_erase.2 x', ?_⟩
    rw [Function.iterate_succ_apply', Function.iterate_succ_apply', hrun, hrun', twins_erase]
    exact scaleOrRoll_like hE e (by rw [x, x', h]) q q'
  · refine stop ?_
    rw [twins_erase]
    unfold run reconcile
    rw [hE.selectsAll, hE.deleting, hE.paused]
    split
    · exact h
    rename_i g1
    split
    · exact h
    rename_i g2
    split
    · exact h
    rename_i g3
    split
    · unfold reconcileDeleting
      rw [hE.finalizer]
      split
      · exact h
      · cases l with
        | nil => rw [List.map_nil, List.map_eq_nil_iff] at h; subst h; rfl
        | cons a l =>
          cases l' with
          | nil => cases h
          | cons b l' =>
            dsimp only
            rw [getNew_false_erase d' e (terminate_unique e _ hu'), getNew_false_erase d e (terminate_unique e _ hu), terminate_erase e h]
    rename_i g4
    split
    · exact h
    rename_i g5
    split
    · have noerr : ∀ (d : FDep) (l : List FSet), (getNew d e false l).err = false := by
        intro d l
        cases hn : cur d l with
        | none => rw [getNew_none hn]; rfl
        | some n =>
          rw [getNew_cur hn]
          cases hw : toWrite d l n with
          | true => rw [sync_write hw, hs]; rfl
          | false => rw [sync_rest hw, hdep]; rfl
      rcases getNew_like_or hE e hu h with h1 | h1 | h1
      · exact sync_like hE e h1
      · rw [noerr] at h1; cases h1
      · rw [noerr] at h1; cases h1
    rename_i g6
    exact absurd ⟨by simpa using g1, by simpa using g2, by simpa using g3, by simpa using g4, by simpa using g5, by simpa using g6⟩ hgo

/-! ## From the deployment to the machine set -/

/-- **C128** (partial: the revision of the machine set must be readable): a run that gets through gives the machine set of the template the node template, configuration and
class kind of the deployment, and leaves the templates of all other sets alone. No set is added, no set disappears. -/
theorem C128_reaches_set_partial (d : FDep) (hd : Live d) (e : Env) (he : Through d e) (l : List FSet) (hu : Dispatch.Unique l) (n : FSet)
    (hn : l.find? (fun f => equalIgnoreHash f.tmpl d.template) = some n) (hrev : Revised n) :
    List.Forall₂ (fun a b => b.set.name = a.set.name ∧ b.tmpl.labels = a.tmpl.labels ∧ b.tmpl.body = a.tmpl.body ∧
      (a = n → b.tmpl.nodeTemplate = d.template.nodeTemplate ∧ b.tmpl.config = d.template.config ∧ b.tmpl.classKind = d.template.classKind) ∧
      (a ≠ n → b.tmpl = a.tmpl)) l (reconcile d e l).sets := by
  have hn' : cur d l = some n := hn
  rcases run_smooth hd.alive hd.noRollback he.selector he.valid he.list he.pre he.set hn' with ⟨h, hw⟩ | h
  · have ha := (quiet_agrees hw hrev).1
    refine h.imp fun a b hab => ⟨hab.1, by rw [hab.2], by rw [hab.2], fun e => ?_, fun _ => hab.2⟩
    rw [hab.2, e, ← ha]
    exact ⟨rfl, rfl, rfl⟩
  · refine forall2_trans ?_ (writeCur_exact d hu (cur_mem hn')) h
    intro a b c h1 h2
    by_cases e : a = n
    · have hb := h1.1 e
      subst e
      rw [h2.1, h2.2, hb]
      exact ⟨rfl, rfl, rfl, fun _ => ⟨rfl, rfl, rfl⟩, fun h => absurd rfl h⟩
    · rw [h2.1, h2.2, h1.2 e]
      exact ⟨rfl, rfl, rfl, fun h => absurd h e, fun _ => rfl⟩

/-! ## From the machine set to its machines and nodes -/

/-- the machine set of the template is `home` and has the values of the deployment; names are unique -/
structure Arrived (d : FDep) (home : String) (s : State) : Prop where
  unique : Dispatch.Unique s.sets
  cur : ∃ c, Dispatch.cur d s.sets = some c ∧ c.set.name = home ∧ specOf c.tmpl = specOf d.template
  names : (s.machines.map (·.name)).Nodup

theorem Arrived.spec {d : FDep} {home : String} {s : State} (h : Arrived d home s) {f : FSet} (hf : f ∈ s.sets) (hn : f.set.name = home) : specOf f.tmpl = specOf d.template := by
  obtain ⟨c, hc, h1, h2⟩ := h.cur
  rw [unique_eq _ h.unique f c hf (cur_mem hc) (hn.trans h1.symm), h2]

theorem sameT_arrived {d : FDep} {home : String} {l l' : List FSet} (h : List.Forall₂ SameT l l') (hu : Dispatch.Unique l)
    (hc : ∃ c, Dispatch.cur d l = some c ∧ c.set.name = home ∧ specOf c.tmpl = specOf d.template) :
    Dispatch.Unique l' ∧ ∃ c, Dispatch.cur d l' = some c ∧ c.set.name = home ∧ specOf c.tmpl = specOf d.template := by
  refine ⟨unique_forall2 (fun a b hr => hr.1) h hu, ?_⟩
  obtain ⟨c, h1, h2, h3⟩ := hc
  rcases cur_forall2 (d := d) (fun a b hr => by rw [hr.2]; exact ⟨rfl, rfl⟩) h with ⟨e1, _⟩ | ⟨a, b, e1, e2, hr⟩
  · rw [h1] at e1; cases e1
  · obtain rfl : c = a := Option.some.inj (h1.symm.trans e1)
    exact ⟨b, e2, hr.1.trans h2, by rw [hr.2, h3]⟩

theorem writeCur_arrived {d : FDep} {l : List FSet} (hu : Dispatch.Unique l) {n : FSet} (hn : Dispatch.cur d l = some n) :
    Dispatch.Unique (writeCur d l n) ∧ ∃ c, Dispatch.cur d (writeCur d l n) = some c ∧ c.set.name = n.set.name ∧ specOf c.tmpl = specOf d.template := by
  have hw := written_forall2 (d := d) hu (cur_mem hn)
  have hx := writeCur_exact d hu (cur_mem hn)
  refine ⟨unique_forall2 (fun a b hr => by rw [hr.1]) hw hu, ?_⟩
  rcases cur_forall2 (d := d) (R := fun a b => (b.tmpl.labels = a.tmpl.labels ∧ b.tmpl.body = a.tmpl.body) ∧ (a = n → b = written d l n)) (fun a b hr => hr.1)
    (hx.imp fun a b hr => by
      by_cases e : a = n
      · rw [hr.1 e, e]; exact ⟨⟨rfl, rfl⟩, fun _ => rfl⟩
      · rw [hr.2 e]; exact ⟨⟨rfl, rfl⟩, fun h => absurd h e⟩) with ⟨e1, _⟩ | ⟨a, b, e1, e2, hr⟩
  · rw [hn] at e1; cases e1
  · obtain rfl : n = a := Option.some.inj (hn.symm.trans e1)
    exact ⟨b, e2, by rw [hr.2 rfl]; rfl, by rw [hr.2 rfl]; rfl⟩

/-- the run that brings the edit to the set -/
theorem deploy_arrives {d : FDep} (hd : Live d) {e : Env} (he : Through d e) {s : State} (hu : Dispatch.Unique s.sets) {n : FSet} (hn : Dispatch.cur d s.sets = some n)
    (hrev : Revised n) (hm : (s.machines.map (·.name)).Nodup) : Arrived d n.set.name { s with sets := (reconcile d e s.sets).sets } := by
  rcases run_smooth hd.alive hd.noRollback he.selector he.valid he.list he.pre he.set hn with ⟨h, hw⟩ | h
  · have ha := (quiet_agrees hw hrev).1
    obtain ⟨h1, h2⟩ := sameT_arrived (d := d) (home := n.set.name) h hu ⟨n, hn, rfl, by rw [← ha]; rfl⟩
    exact ⟨h1, h2, hm⟩
  · obtain ⟨h1, h2⟩ := writeCur_arrived hu hn
    obtain ⟨h1, h2⟩ := sameT_arrived h h1 h2
    exact ⟨h1, h2, hm⟩

/-- later runs do not undo it -/
theorem deploy_keeps {d : FDep} (hd : Live d) {home : String} {s : State} (h : Arrived d home s) (e : Env) : Arrived d home { s with sets := (reconcile d e s.sets).sets } := by
  obtain ⟨c, hc, h1, h2⟩ := h.cur
  rcases run_tmpl hd.alive hd.noRollback e hc with hs | hs
  · obtain ⟨a, b⟩ := sameT_arrived hs h.unique h.cur
    exact ⟨a, b, h.names⟩
  · obtain ⟨a, b⟩ := writeCur_arrived h.unique hc
    obtain ⟨a, b⟩ := sameT_arrived hs a b
    rw [h1] at b
    exact ⟨a, b, h.names⟩

open SyncMachines in
theorem write_name : ∀ (as : List Attempt) (m : Mach), (write as m).1.name = m.name
  | [], _ => rfl
  | a :: as, m => by
    rw [write]
    repeat' split
    all_goals first | rfl | exact write_name as _

open SyncMachines in
theorem sync_names (f : Field) (want : Spec) (att : String → List Attempt) : ∀ ms : List Mach, (SyncMachines.sync f want att ms).1.map (·.name) = ms.map (·.name)
  | [] => rfl
  | m :: ms => by
    have h1 : (syncOne f want (att m.name) m).1.name = m.name := by
      unfold syncOne
      split
      · rfl
      · split
        · rfl
        · exact write_name _ _
    rw [SyncMachines.sync]
    dsimp only
    split
    · rw [List.map_cons, List.map_cons, h1, sync_names f want att ms]
    · rw [List.map_cons, List.map_cons, h1]

open SyncMachines in
theorem reconcile_names (want : Spec) (att : Field → String → List Attempt) (ms : List Mach) : (SyncMachines.reconcile want att ms).1.map (·.name) = ms.map (·.name) := by
  unfold SyncMachines.reconcile
  dsimp only
  split
  · split
    · rw [sync_names, sync_names, sync_names]
    · rw [sync_names, sync_names]
  · rw [sync_names]

/-- steps keep the set and the names -/
theorem step_arrived {d : FDep} (hd : Live d) {home : String} {decode : String → NodeSync.Template} {s s' : State} (h : Arrived d home s) (hs : Step d home decode s s') :
    Arrived d home s' := by
  cases hs with
  | deploy e => exact deploy_keeps hd h e
  | report l hl =>
    obtain ⟨a, b⟩ := sameT_arrived (d := d) (home := home) hl h.unique h.cur
    exact ⟨a, b, h.names⟩
  | watch p =>
    refine ⟨h.unique, h.cur, ?_⟩
    have : (s.machines.map fun m => if p m.name then m.refresh else m).map (·.name) = s.machines.map (·.name) := by
      rw [List.map_map]
      refine List.map_congr_left fun m _ => ?_
      show (if p m.name then m.refresh else m).name = m.name
      split <;> rfl
    show ((s.machines.map fun m => if p m.name then m.refresh else m).map (·.name)).Nodup
    rw [this]; exact h.names
  | set f att hf hn => exact ⟨h.unique, h.cur, by show ((SyncMachines.reconcile _ _ _).1.map (·.name)).Nodup; rw [reconcile_names]; exact h.names⟩
  | create f m hf hn hfr hsp hc =>
    refine ⟨h.unique, h.cur, ?_⟩
    show ((s.machines ++ [m]).map (·.name)).Nodup
    rw [List.map_append, List.nodup_append]
    refine ⟨h.names, by simp, ?_⟩
    intro a ha b hb
    obtain ⟨x, hx, rfl⟩ := List.mem_map.1 ha
    rw [List.map_singleton, List.mem_singleton] at hb
    subst hb
    exact hfr x hx
  | remove p => exact ⟨h.unique, h.cur, h.names.sublist (List.Sublist.map _ List.filter_sublist)⟩
  | node m n hm hd => exact ⟨h.unique, h.cur, h.names⟩

theorem good_arrived {d : FDep} {home : String} {s s' : State} (h : Arrived d home s) (hs : Good home s s') : Arrived d home s' := by
  cases hs with
  | round f att hf hn ha =>
    refine ⟨h.unique, h.cur, ?_⟩
    show ((SyncMachines.reconcile _ _ _).1.map (·.name)).Nodup
    rw [reconcile_names, List.map_map]
    exact h.names

/-- what the steps do to the machines, once the caches are sound -/
theorem step_machines {d : FDep} {home : String} {decode : String → NodeSync.Template} {s s' : State} (h : Arrived d home s) (hs : Step d home decode s s')
    (hsound : ∀ m ∈ s.machines, SyncMachines.Sound (specOf d.template) m) :
    (∀ m ∈ s'.machines, SyncMachines.Sound (specOf d.template) m) ∧
    ∀ (p : SyncMachines.Mach → Prop) (f : SyncMachines.Field), (∀ a b : SyncMachines.Mach, b.name = a.name → b.active = a.active → p b → p a) →
      (∀ m ∈ s.machines, p m → SyncMachines.Agrees f (specOf d.template) m) → ∀ m ∈ s'.machines, p m → SyncMachines.Agrees f (specOf d.template) m := by
  cases hs with
  | deploy e => exact ⟨hsound, fun _ _ _ h => h⟩
  | report l hl => exact ⟨hsound, fun _ _ _ h => h⟩
  | watch p =>
    refine ⟨fun m hm => ?_, fun q f hq hp m hm hqm => ?_⟩
    · obtain ⟨x, hx, rfl⟩ := List.mem_map.1 hm
      split
      · exact SyncMachines.Sound.refresh _ x
      · exact hsound x hx
    · obtain ⟨x, hx, rfl⟩ := List.mem_map.1 hm
      by_cases e : p x.name = true
      · rw [if_pos e] at hqm ⊢
        exact hp x hx (hq x x.refresh rfl rfl hqm)
      · rw [if_neg e] at hqm ⊢
        exact hp x hx hqm
  | set f att hf hn =>
    rw [h.spec hf hn]
    have hk := SyncMachines.C49_never_undone (specOf d.template) att s.machines hsound
    refine ⟨SyncMachines.sound_of_forall2 hk, fun q f hq hp => ?_⟩
    revert hk hp
    generalize (SyncMachines.reconcile (specOf d.template) att s.machines).1 = out
    generalize s.machines = ms
    intro hk hp
    induction hk with
    | nil => exact fun _ h => (nomatch h)
    | @cons x y _ _ hr _ ih =>
      intro m hm hqm
      rcases List.mem_cons.1 hm with rfl | hm
      · exact hr.1.2.2 f (hp x List.mem_cons_self (hq x m hr.1.1 hr.1.2.1 hqm))
      · exact ih (fun z hz => hp z (List.mem_cons_of_mem _ hz)) m hm hqm
  | create f m hf hn hfr hsp hc =>
    refine ⟨fun x hx => ?_, fun q g hq hp x hx hqx => ?_⟩
    · rcases List.mem_append.1 hx with hx | hx
      · exact hsound x hx
      · rw [List.mem_singleton] at hx; subst hx
        exact fun _ _ => .inl (by rw [hc])
    · rcases List.mem_append.1 hx with hx | hx
      · exact hp x hx hqx
      · rw [List.mem_singleton] at hx; subst hx
        show x.stored.spec.get g = _
        rw [hsp, h.spec hf hn]
  | remove p => exact ⟨fun m hm => hsound m (List.mem_of_mem_filter hm), fun _ _ _ h m hm => h m (List.mem_of_mem_filter hm)⟩
  | node m n hm hd => exact ⟨hsound, fun _ _ _ h => h⟩

/-- the machines that are not skipped agree -/
def AgreeAll (d : FDep) (f : SyncMachines.Field) (ms : List SyncMachines.Mach) : Prop := ∀ m ∈ ms, m.skipped f = false → SyncMachines.Agrees f (specOf d.template) m

theorem skip_congr (f : SyncMachines.Field) (a b : SyncMachines.Mach) (h : b.active = a.active) (hb : b.skipped f = false) : a.skipped f = false := by
  rw [← hb]
  unfold SyncMachines.Mach.skipped
  cases f <;> simp [h]

theorem run_machines {d : FDep} (hd : Live d) {home : String} {decode : String → NodeSync.Template} {k : Nat} {s s' : State} (h : Arrived d home s) (hr : Run d home decode k s s') :
    Arrived d home s' ∧ (1 ≤ k → (∀ m ∈ s'.machines, SyncMachines.Sound (specOf d.template) m) ∧ AgreeAll d .template s'.machines) ∧
      (2 ≤ k → AgreeAll d .config s'.machines) ∧ (3 ≤ k → AgreeAll d .kind s'.machines) := by
  induction hr with
  | refl => exact ⟨h, fun h => by omega, fun h => by omega, fun h => by omega⟩
  | step _ hs ih =>
    obtain ⟨ih, i1, i2, i3⟩ := ih h
    refine ⟨step_arrived hd ih hs, fun hk => ?_, fun hk => ?_, fun hk => ?_⟩
    · obtain ⟨a, b⟩ := step_machines ih hs (i1 hk).1
      exact ⟨a, b _ _ (fun x y _ => skip_congr _ x y) (i1 hk).2⟩
    · exact (step_machines ih hs (i1 (by omega)).1).2 _ _ (fun x y _ => skip_congr _ x y) (i2 hk)
    · exact (step_machines ih hs (i1 (by omega)).1).2 _ _ (fun x y _ => skip_congr _ x y) (i3 hk)
  | @good k _ s1 _ _ hs ih =>
    obtain ⟨ih, i1, i2, i3⟩ := ih h
    refine ⟨good_arrived ih hs, ?_⟩
    cases hs with
    | round f att hf hn ha =>
      rw [ih.spec hf hn]
      obtain ⟨p1, p2, p3⟩ := SyncMachines.round_progress (specOf d.template) att ha s1.machines
      have hsound : ∀ m ∈ s1.machines.map SyncMachines.Mach.refresh, SyncMachines.Sound (specOf d.template) m := by
        intro m hm
        obtain ⟨x, _, rfl⟩ := List.mem_map.1 hm
        exact SyncMachines.Sound.refresh _ x
      have hk := SyncMachines.C49_never_undone (specOf d.template) att _ hsound
      exact ⟨fun _ => ⟨SyncMachines.sound_of_forall2 hk, p1⟩, fun h2 => p2 (i1 (by omega)).2, fun h3 => p3 (i1 (by omega)).2 (i2 (by omega))⟩

/-- **C128** (partial: the revision of the machine set must be readable): once a run of the deployment controller has got through, whatever else happens – failing runs of either
controller, new sizes, machines that come and go –, after three runs of the machine set controller that get through every active machine has the node template, configuration and
class kind of the deployment. -/
theorem C128_reaches_machines_partial (d : FDep) (hd : Live d) (e : Env) (he : Through d e) (decode : String → NodeSync.Template) (s s' : State)
    (hu : Dispatch.Unique s.sets) (hm : (s.machines.map (·.name)).Nodup) (n : FSet) (hn : s.sets.find? (fun f => equalIgnoreHash f.tmpl d.template) = some n) (hrev : Revised n)
    (k : Nat) (hk : 3 ≤ k) (hr : Run d n.set.name decode k { s with sets := (reconcile d e s.sets).sets } s') :
    ∀ m ∈ s'.machines, m.active = true →
      m.stored.spec.template = d.template.nodeTemplate ∧ m.stored.spec.config = d.template.config ∧ m.stored.spec.kind = d.template.classKind := by
  obtain ⟨_, h1, h2, h3⟩ := run_machines hd (deploy_arrives hd he hu hn hrev hm) hr
  intro m hmem hact
  have hs : ∀ f, m.skipped f = false := by intro f; unfold SyncMachines.Mach.skipped; cases f <;> simp [hact]
  exact ⟨(h1 (by omega)).2 m hmem (hs _), h2 (by omega) m hmem (hs _), h3 hk m hmem (hs _)⟩

/-! ### Nodes -/

/-- the node is as the template wants it, and can be synced -/
structure NodeOk (t : NodeSync.Template) (gone : NodeSync.Key → Prop) (n : NodeSync.Node) : Prop where
  settled : Settled t n
  gone : ∀ k, gone k → n.at k = none
  taints : Taints.Valid n.taints
  last : n.last ≠ some none

theorem update_ok {t : NodeSync.Template} (ht : NodeSync.WF t) {gone : NodeSync.Key → Prop} (hg : ∀ k, gone k → t.at k = none) {n n' : NodeSync.Node} (hv : Taints.Valid n.taints)
    (hgone : ∀ k, gone k → ((NodeSync.recorded n).at k).isSome = true ∨ n.at k = none) (h : NodeSync.decide_ t n = .update n') : NodeOk t gone n' := by
  obtain ⟨h1, h2⟩ := NodeSync.C33_update_is_merge t ht n n' hv h
  have hrec : NodeSync.recorded n' = t := by unfold NodeSync.recorded; rw [h2]
  refine ⟨⟨fun k v hk => ?_, fun k hk => by rw [hrec] at hk; exact hk⟩, fun k hk => ?_, NodeSync.update_taints h hv, by rw [h2]; simp⟩
  · rw [h1]
    unfold NodeSync.merged
    rw [hk]
  · rw [h1]
    unfold NodeSync.merged
    rw [hg k hk]
    dsimp only
    split
    · rfl
    · rename_i hns
      rcases hgone k hk with h | h
      · exact absurd h hns
      · exact h

/-- **C128** (partial: as above; taints of the template without time stamp, a readable record on the node): when the machine of a node has got the template, the next sync of
the node gives it all labels, annotations and taints of the template and removes what an earlier template had brought and this one does not have; and whatever happens afterwards
it stays so. -/
theorem C128_reaches_nodes_partial (d : FDep) (hd : Live d) (e : Env) (he : Through d e) (decode : String → NodeSync.Template) (s s1 s2 s3 : State)
    (hu : Dispatch.Unique s.sets) (hm : (s.machines.map (·.name)).Nodup) (n : FSet) (hn : s.sets.find? (fun f => equalIgnoreHash f.tmpl d.template) = some n) (hrev : Revised n)
    (ht : NodeSync.WF (decode d.template.nodeTemplate)) (htl : NodeSync.Timeless (decode d.template.nodeTemplate))
    (k : Nat) (hk : 1 ≤ k) (hr : Run d n.set.name decode k { s with sets := (reconcile d e s.sets).sets } s1)
    (m : SyncMachines.Mach) (hmem : m ∈ s1.machines) (hact : m.active = true) (hv : Taints.Valid (s1.nodes m.name).taints) (hl : (s1.nodes m.name).last ≠ some none)
    (hs2 : s2 = { s1 with nodes := fun x => if x = m.name then (match NodeSync.decide_ (decode m.stored.spec.template) (s1.nodes m.name) with
      | .update n => n
      | _ => s1.nodes m.name) else s1.nodes x })
    (k' : Nat) (hr' : Run d n.set.name decode k' s2 s3) :
    (∀ key v, (decode d.template.nodeTemplate).at key = some v → (s3.nodes m.name).at key = some v) ∧
    ∀ key, ((NodeSync.recorded (s1.nodes m.name)).at key).isSome = true → (decode d.template.nodeTemplate).at key = none → (s3.nodes m.name).at key = none := by
  obtain ⟨ha, h1, _, _⟩ := run_machines hd (deploy_arrives hd he hu hn hrev hm) hr
  obtain ⟨hsound, htmpl⟩ := h1 hk
  have hmt : m.stored.spec.template = d.template.nodeTemplate := htmpl m hmem (by unfold SyncMachines.Mach.skipped; simp [hact])
  let t := decode d.template.nodeTemplate
  let gone : NodeSync.Key → Prop := fun key => ((NodeSync.recorded (s1.nodes m.name)).at key).isSome = true ∧ t.at key = none
  rw [hmt] at hs2
  -- the sync
  have h2 : NodeOk t gone (s2.nodes m.name) := by
    rw [hs2]
    show NodeOk t gone (if m.name = m.name then _ else _)
    rw [if_pos rfl]
    cases hdec : NodeSync.decide_ (decode d.template.nodeTemplate) (s1.nodes m.name) with
    | update n' => exact update_ok ht (fun _ h => h.2) hv (fun _ h => .inl h.1) hdec
    | nothing =>
      have := (NodeSync.C33_nothing_iff t ht htl (s1.nodes m.name) hv hl).1 hdec
      refine ⟨⟨this.2.1, this.2.2⟩, fun k hk => ?_, hv, hl⟩
      have h3 := this.2.2 k hk.1
      rw [hk.2] at h3; cases h3
    | error =>
      exfalso
      rw [NodeSync.decide_eq, if_neg hl] at hdec
      split at hdec <;> cases hdec
  -- what is kept from then on
  have ha2 : Arrived d n.set.name s2 := by rw [hs2]; exact ⟨ha.unique, ha.cur, ha.names⟩
  have hsound2 : ∀ x ∈ s2.machines, SyncMachines.Sound (specOf d.template) x := by rw [hs2]; exact hsound
  have htm2 : ∀ x ∈ s2.machines, x.name = m.name → SyncMachines.Agrees .template (specOf d.template) x := by
    rw [hs2]
    intro x hx hxn
    have : x = m := by
      have hnd := ha.names
      exact List.inj_on_of_nodup_map hnd hx hmem hxn
    rw [this]; exact hmt
  have key : Arrived d n.set.name s3 ∧ (∀ x ∈ s3.machines, SyncMachines.Sound (specOf d.template) x) ∧
      (∀ x ∈ s3.machines, x.name = m.name → SyncMachines.Agrees .template (specOf d.template) x) ∧ NodeOk t gone (s3.nodes m.name) := by
    clear hs2
    induction hr' with
    | refl => exact ⟨ha2, hsound2, htm2, h2⟩
    | step _ hs ih =>
      obtain ⟨i1, i2, i3, i4⟩ := ih h2 ha2 hsound2 htm2
      obtain ⟨j1, j2⟩ := step_machines i1 hs i2
      refine ⟨step_arrived hd i1 hs, j1, j2 (fun x => x.name = m.name) .template (fun a b h _ hb => h.symm.trans hb) i3, ?_⟩
      cases hs with
      | deploy => exact i4
      | report => exact i4
      | watch => exact i4
      | set => exact i4
      | create => exact i4
      | remove => exact i4
      | node x nn hx hdec =>
        show NodeOk t gone (if m.name = x.name then nn else _)
        split
        · rename_i hname
          have hxt : x.stored.spec.template = d.template.nodeTemplate := i3 x hx hname.symm
          rw [hxt, ← hname] at hdec
          exact update_ok ht (fun _ h => h.2) i4.taints (fun k h => .inr (i4.gone k h)) hdec
        · exact i4
    | @good _ _ s4 _ _ hs ih =>
      obtain ⟨i1, i2, i3, i4⟩ := ih h2 ha2 hsound2 htm2
      refine ⟨good_arrived i1 hs, ?_⟩
      cases hs with
      | round f att hf hn' hsm =>
        rw [i1.spec hf hn']
        have hso : ∀ m ∈ s4.machines.map SyncMachines.Mach.refresh, SyncMachines.Sound (specOf d.template) m := by
          intro m hm
          obtain ⟨x, _, rfl⟩ := List.mem_map.1 hm
          exact SyncMachines.Sound.refresh _ x
        have hag : ∀ x ∈ s4.machines.map SyncMachines.Mach.refresh, x.name = m.name → SyncMachines.Agrees .template (specOf d.template) x := by
          intro y hy
          obtain ⟨x, hx, rfl⟩ := List.mem_map.1 hy
          exact i3 x hx
        have hk := SyncMachines.C49_never_undone (specOf d.template) att _ hso
        refine ⟨SyncMachines.sound_of_forall2 hk, ?_, i4⟩
        show ∀ x ∈ (SyncMachines.reconcile (specOf d.template) att (s4.machines.map SyncMachines.Mach.refresh)).1, _
        revert hk hag
        generalize (SyncMachines.reconcile (specOf d.template) att (s4.machines.map SyncMachines.Mach.refresh)).1 = out
        generalize s4.machines.map SyncMachines.Mach.refresh = ms
        intro hag hk
        clear hso
        induction hk with
        | nil => exact fun _ h => (nomatch h)
        | @cons x y _ _ hr _ ih =>
          intro z hz hzn
          rcases List.mem_cons.1 hz with rfl | hz
          · exact hr.1.2.2 .template (hag x List.mem_cons_self (hr.1.1.symm.trans hzn))
          · exact ih (fun z hz => hag z (List.mem_cons_of_mem _ hz)) z hz hzn
  exact ⟨key.2.2.2.settled.1, fun k h1 h2 => key.2.2.2.gone k ⟨h1, h2⟩⟩

/-! ## What is not true -/

/-- a deployment of three machines, not paused -/
private def three (t : String) : FDep :=
  { spec := { replicas := 3, maxSurge := some (.int 1), maxUnavailable := some (.int 0) }, template := { body := "v2", nodeTemplate := t, config := "c", classKind := "k" } }
/-- an old set -/
private def old (n : Int) (t : String) : FSet :=
  { set := { name := "w-v1", spec := n, avail := n, desired := some "3", maxR := some "4" }, tmpl := { body := "v1", nodeTemplate := t, config := "c", classKind := "k" }, status := n
    annotations := [("deployment.kubernetes.io/revision", "1")] }
/-- the set of the template, with a revision -/
private def new (n : Int) (t rev : String) : FSet :=
  { set := { name := "w-v2", spec := n, avail := n, desired := some "3", maxR := some "4", creation := 1 }, tmpl := { body := "v2", nodeTemplate := t, config := "c", classKind := "k" }
    status := n, annotations := [("deployment.kubernetes.io/revision", rev)] }

/-- C128, false part: a set whose revision is not a number does not get the edit, however often the controller runs: it is compared and found to differ, and the difference is
dropped because of the revision. -/
theorem C128_unreadable_revision_false : ¬ ∀ (d : FDep) (_ : Live d) (e : Env) (_ : Through d e) (l : List FSet) (_ : Dispatch.Unique l) (n : FSet)
    (_ : l.find? (fun f => equalIgnoreHash f.tmpl d.template) = some n),
    ∃ k, ∀ f ∈ (run d e)^[k] l, f.set.name = n.set.name → f.tmpl.nodeTemplate = d.template.nodeTemplate := by
  intro h
  obtain ⟨k, hk⟩ := h (three "b") ⟨rfl, rfl⟩ {} ⟨rfl, rfl, rfl, rfl, rfl⟩ [new 3 "a" "x"] (by show List.Nodup ["w-v2"]; decide) (new 3 "a" "x") (by decide +kernel)
  have hfix : run (three "b") {} [new 3 "a" "x"] = [new 3 "a" "x"] := by decide +kernel
  have : ∀ k, (run (three "b") {})^[k] [new 3 "a" "x"] = [new 3 "a" "x"] := by
    intro k
    induction k with
    | zero => rfl
    | succ k ih => rw [Function.iterate_succ_apply', ih, hfix]
  rw [this] at hk
  have := hk _ (List.mem_singleton_self _) rfl
  revert this
  decide

/-- C128, false part: during a rollout the old sets, and so the machines that are still theirs, do not get the edit. -/
theorem C128_old_sets_false : ¬ ∀ (d : FDep) (_ : Live d) (e : Env) (_ : Through d e) (l : List FSet) (_ : Dispatch.Unique l) (_ : ∀ f ∈ l, Revised f),
    ∀ f ∈ run d e l, f.tmpl.nodeTemplate = d.template.nodeTemplate := by
  intro h
  have := h (three "b") ⟨rfl, rfl⟩ {} ⟨rfl, rfl, rfl, rfl, rfl⟩ [old 2 "a", new 1 "b" "2"] (by show List.Nodup ["w-v1", "w-v2"]; decide)
    (by
      intro f hf s hs
      rcases List.mem_cons.1 hf with rfl | hf
      · exact .inr ⟨1, by obtain rfl : "1" = s := Option.some.inj hs; decide +kernel⟩
      · have := List.mem_singleton.1 hf; subst this
        exact .inr ⟨2, by obtain rfl : "2" = s := Option.some.inj hs; decide +kernel⟩)
    (old 2 "a") (by decide +kernel)
  revert this
  decide

/-! ## Cases -/

-- in the middle of a rollout the node template is edited: the first run writes the set, the second does what the first does without the edit
example : (run (three "a") {} [old 2 "a", new 1 "a" "2"]).map (fun f => (f.set.spec, f.tmpl.nodeTemplate)) = [(2, "a"), (2, "a")] ∧
    (run (three "b") {} [old 2 "a", new 1 "a" "2"]).map (fun f => (f.set.spec, f.tmpl.nodeTemplate)) = [(2, "a"), (1, "b")] ∧
    ((run (three "b") {})^[2] [old 2 "a", new 1 "a" "2"]).map (fun f => (f.set.spec, f.tmpl.nodeTemplate)) = [(2, "a"), (2, "b")] := by decide +kernel
example : EditOf (three "a") (three "b") := ⟨"b", "c", "k", [], 0, rfl⟩
example : Live (three "b") ∧ Through (three "b") {} ∧ Dispatch.Unique [old 2 "a", new 1 "a" "2"] := ⟨⟨rfl, rfl⟩, ⟨rfl, rfl, rfl, rfl, rfl⟩, by show List.Nodup ["w-v1", "w-v2"]; decide⟩
example : Revised (new 1 "a" "2") := fun s hs => .inr ⟨2, by obtain rfl : "2" = s := Option.some.inj hs; decide +kernel⟩

/-- a machine with node template `t`, the copy in the cache as a failed update left it -/
private def mach (t : String) : SyncMachines.Mach := { name := "m", stored := ⟨4, ⟨t, "c0", "k"⟩⟩, cached := ⟨3, ⟨"lost", "c0", "k"⟩⟩ }
/-- node templates -/
private def read (t : String) : NodeSync.Template := { labels := [(t, "1")] }
/-- the state after the edit has reached the set -/
private def start : State := { sets := [old 2 "a", new 1 "b" "2"], machines := [mach "a"], nodes := fun _ => { labels := [("a", "1"), ("own", "1")], last := some (some (read "a")) } }

-- three good runs, a failing one and a resync of the set before them
example : ∃ s', Run (three "b") "w-v2" read 3 start s' ∧ s'.machines.map (·.stored.spec) = [⟨"b", "c", "k"⟩] := by
  have ok : ∀ (g : SyncMachines.Field) (n : String), ∃ as, (fun _ _ => [{}] : SyncMachines.Field → String → List SyncMachines.Attempt) g n = { refresh := false, error := false } :: as ∧
      ∀ a ∈ as, a.error = false ∧ a.refresh = false := fun _ _ => ⟨[], rfl, fun _ h => (nomatch h)⟩
  refine ⟨_, .good (.good (.good (.step (.refl _) (.set (new 1 "b" "2") (fun _ _ => [{ error := true }]) ?_ rfl))
    (.round (new 1 "b" "2") (fun _ _ => [{}]) ?_ rfl ok)) (.round (new 1 "b" "2") (fun _ _ => [{}]) ?_ rfl ok)) (.round (new 1 "b" "2") (fun _ _ => [{}]) ?_ rfl ok), ?_⟩
  · decide
  · decide
  · decide
  · decide
  · decide +kernel

-- the node then: the label of the old template goes, its own one stays
example : NodeSync.decide_ (read "b") (start.nodes "m") = .update { labels := [("b", "1"), ("own", "1")], last := some (some (read "b")) } := by decide +kernel

end MCM.InPlace
