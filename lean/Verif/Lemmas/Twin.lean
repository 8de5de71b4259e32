import Verif.Lemmas.DispatchSteps
/-!
Runs of the deployment controller for two deployments that differ only in what is changed in place.
-/
namespace MCM.Dispatch
open MCM MCM.Template MCM.Rolling

/-- a set without what is changed in place -/
def erase (f : FSet) : FSet := { f with tmpl := { labels := f.tmpl.labels, body := f.tmpl.body }, annotations := [], minReady := 0 }

/-- as `cur`, for an erased list the same -/
theorem cur_erase (d d' : FDep) (hl : d'.template.labels = d.template.labels) (hb : d'.template.body = d.template.body) {l l' : List FSet}
    (h : l'.map erase = l.map erase) : (cur d l = none ∧ cur d' l' = none) ∨ ∃ a b, cur d l = some a ∧ cur d' l' = some b ∧ erase b = erase a := by
  unfold cur
  induction l generalizing l' with
  | nil => rw [List.map_nil, List.map_eq_nil_iff] at h; subst h; exact .inl ⟨rfl, rfl⟩
  | cons a l ih =>
    cases l' with
    | nil => cases h
    | cons b l' =>
      rw [List.map_cons, List.map_cons, List.cons.injEq] at h
      have e : equalIgnoreHash b.tmpl d'.template = equalIgnoreHash a.tmpl d.template := by
        unfold equalIgnoreHash
        have h1 : b.tmpl.labels = a.tmpl.labels := by have := congrArg (fun f : FSet => f.tmpl.labels) h.1; exact this
        have h2 : b.tmpl.body = a.tmpl.body := by have := congrArg (fun f : FSet => f.tmpl.body) h.1; exact this
        rw [h1, h2, hl, hb]
      rw [List.find?_cons, List.find?_cons, e]
      cases equalIgnoreHash a.tmpl d.template with
      | true => exact .inr ⟨a, b, rfl, rfl, h.1⟩
      | false => exact ih h.2

theorem others_erase (l : List FSet) (n : String) : (others l n).map erase = others (l.map erase) n :=
  (others_map erase l n fun _ _ => rfl).symm

theorem find_erase (l : List FSet) (n : String) : (l.find? fun f => f.set.name == n).map erase = (l.map erase).find? fun f => f.set.name == n := by
  induction l with
  | nil => rfl
  | cons a l ih =>
    rw [List.map_cons, List.find?_cons, List.find?_cons]
    show _ = match a.set.name == n with | true => some (erase a) | false => _
    cases a.set.name == n with
    | true => rfl
    | false => exact ih

/-- the results agree, apart from what is changed in place -/
def Got.Like (g g' : Got) : Prop := g'.sets.map erase = g.sets.map erase ∧ g'.new = g.new ∧ g'.err = g.err

theorem Got.Like.old {g g' : Got} (h : g.Like g') : (oldSets g').map erase = (oldSets g).map erase := by
  unfold oldSets
  rw [h.2.1]
  cases g.new with
  | none => exact h.1
  | some n => dsimp only; rw [others_erase, others_erase, h.1]

theorem Got.Like.cur {g g' : Got} (h : g.Like g') : (curSet g').map erase = (curSet g).map erase := by
  unfold curSet
  rw [h.2.1]
  cases g.new with
  | none => rfl
  | some n => dsimp only; rw [find_erase, find_erase, h.1]

/-- what does not look at the erased parts -/
theorem map_erase {α : Type} {g : FSet → α} (hg : ∀ f, g (erase f) = g f) {l l' : List FSet} (h : l'.map erase = l.map erase) : l'.map g = l.map g := by
  have e : ∀ k : List FSet, k.map g = (k.map erase).map g := fun k => by rw [List.map_map]; exact List.map_congr_left fun f _ => (hg f).symm
  rw [e l', e l, h]

theorem omap_erase {α : Type} {g : FSet → α} (hg : ∀ f, g (erase f) = g f) {o o' : Option FSet} (h : o'.map erase = o.map erase) : o'.map g = o.map g := by
  cases o <;> cases o' <;> first | rfl | cases h | skip
  rw [Option.map_some, Option.map_some, Option.some.injEq] at h
  rw [Option.map_some, Option.map_some, ← hg, h, hg]

theorem erase_map (g : FSet → FSet) (hg : ∀ f, erase (g f) = g (erase f)) (l : List FSet) : (l.map g).map erase = (l.map erase).map g := by
  rw [List.map_map, List.map_map]
  exact List.map_congr_left fun f _ => hg f

/-- what `resize` does to a set -/
def refit (r : List Scale.MSet) (f : FSet) : FSet :=
  match r.find? (fun s => s.name == f.set.name) with
  | some s => { f with set := s }
  | none => f

theorem resize_map (l : List FSet) (r : List Scale.MSet) : resize l r = l.map (refit r) := rfl

theorem resize_erase {l l' : List FSet} (r : List Scale.MSet) (h : l'.map erase = l.map erase) : (resize l' r).map erase = (resize l r).map erase := by
  have hg : ∀ f : FSet, erase (refit r f) = refit r (erase f) := by
    intro f
    unfold refit
    show _ = match r.find? (fun s => s.name == f.set.name) with | some s => { erase f with set := s } | none => erase f
    cases r.find? (fun s => s.name == f.set.name) <;> rfl
  rw [resize_map, resize_map, erase_map _ hg, erase_map _ hg, h]

theorem resizeMS_erase (d : Dep) {l l' : List FSet} (r : List MS) (h : l'.map erase = l.map erase) :
    (resizeMS d l' r).map erase = (resizeMS d l r).map erase := by
  have hw : ∀ (f : FSet) (n : Int), erase (withSize d f n) = withSize d (erase f) n := by
    intro f n
    unfold withSize
    show _ = if f.set.spec = n then _ else _
    split <;> rfl
  have hg : ∀ f : FSet, erase (resized d r f) = resized d r (erase f) := by
    intro f
    unfold resized
    show _ = match r.find? (fun s => s.name == f.set.name) with | some s => withSize d (erase f) s.spec | none => erase f
    cases r.find? (fun s => s.name == f.set.name) with
    | none => rfl
    | some s => exact hw f s.spec
  rw [resizeMS_map, resizeMS_map, erase_map _ hg, erase_map _ hg, h]

/-- what the clean-up does to a set -/
def mark (del : List Rollback.OldSet) (f : FSet) : FSet := if del.any fun o => o.name == f.set.name then { f with deleting := true } else f

theorem mark_erase (del : List Rollback.OldSet) (f : FSet) : erase (mark del f) = mark del (erase f) := by
  have e : mark del (erase f) = if del.any fun o => o.name == f.set.name then { erase f with deleting := true } else erase f := rfl
  rw [e]
  unfold mark
  split <;> rfl

theorem cleanup_erase (d d' : FDep) (hl : d'.limit = d.limit) (e : Env) {old old' l l' : List FSet} (ho : old'.map erase = old.map erase)
    (h : l'.map erase = l.map erase) : (cleanup d' e old' l').map erase = (cleanup d e old l).map erase := by
  have hm : ∀ (d : FDep) (old l : List FSet), cleanup d e old l =
      l.map (mark ((Rollback.cleanup e.cleanupSort e.cleanupFails d.limit (old.map oldOf)).deleted.filter fun o => !(e.cleanupFails o && e.cleanupLost o))) := fun _ _ _ => rfl
  rw [hm, hm, hl, map_erase (g := oldOf) (fun _ => rfl) ho, erase_map _ (mark_erase _), erase_map _ (mark_erase _), h]

/-- the deployments differ at most in what is changed in place -/
structure Edited (d d' : FDep) : Prop where
  spec : d'.spec = d.spec
  labels : d'.template.labels = d.template.labels
  body : d'.template.body = d.template.body
  paused : d'.paused = d.paused
  rollbackTo : d'.rollbackTo = d.rollbackTo
  limit : d'.limit = d.limit
  deleting : d'.deleting = d.deleting
  finalizer : d'.finalizer = d.finalizer
  selectsAll : d'.selectsAll = d.selectsAll

theorem rolloutCleanup_erase {d d' : FDep} (hd : Edited d d') (e : Env) {old old' l l' : List FSet} (ho : old'.map erase = old.map erase)
    (h : l'.map erase = l.map erase) : (rolloutCleanup d' e old' l').map erase = (rolloutCleanup d e old l).map erase := by
  unfold rolloutCleanup
  split
  · exact cleanup_erase d d' hd.limit e ho h
  · exact h

theorem pausedCleanup_erase {d d' : FDep} (hd : Edited d d') (e : Env) {old old' l l' : List FSet} (ho : old'.map erase = old.map erase)
    (h : l'.map erase = l.map erase) : (pausedCleanup d' e old' l').map erase = (pausedCleanup d e old l).map erase := by
  unfold pausedCleanup
  rw [hd.paused, hd.rollbackTo]
  split
  · exact cleanup_erase d d' hd.limit e ho h
  · exact h

theorem create_erase {d d' : FDep} (hd : Edited d d') (e : Env) {l l' : List FSet} (h : l'.map erase = l.map erase) :
    (createCurrent d e l).Like (createCurrent d' e l') := by
  unfold createCurrent
  rw [hd.spec, map_erase (g := msOf) (fun _ => rfl) h]
  cases newReplicas d.spec (l.map msOf ++ [{ spec := 0 }]) { spec := 0 } with
  | none => exact ⟨h, rfl, rfl⟩
  | some size =>
    have hn : erase (newSet d' e l' size) = erase (newSet d e l size) := by
      unfold newSet erase
      dsimp only
      rw [hd.spec, hd.labels, hd.body]
    dsimp only
    cases e.created with
    | done => exact ⟨by dsimp only; rw [List.map_append, List.map_append, h, List.map_singleton, List.map_singleton, hn], rfl, rfl⟩
    | doneThenError => exact ⟨by dsimp only; rw [List.map_append, List.map_append, h, List.map_singleton, List.map_singleton, hn], rfl, rfl⟩
    | existing f => exact ⟨by dsimp only; rw [List.map_append, List.map_append, h], rfl, rfl⟩
    | failed => exact ⟨h, rfl, rfl⟩

theorem writeCur_erase (d : FDep) (l : List FSet) (hu : Unique l) {n : FSet} (hn : n ∈ l) : (writeCur d l n).map erase = l.map erase := by
  unfold writeCur
  rw [List.map_map]
  refine List.map_congr_left fun f hf => ?_
  show erase (if f.set.name == n.set.name then written d l n else f) = erase f
  split
  · rename_i h
    rw [unique_eq l hu f n hf hn (by simpa using h)]
    rfl
  · rfl

theorem unique_erase {l l' : List FSet} (h : l'.map erase = l.map erase) (hu : Unique l) : Unique l' := by
  unfold Unique at hu ⊢
  rwa [map_erase (g := fun f : FSet => f.set.name) (fun _ => rfl) h]

/-- a run that does not write the current set -/
def Quiet (d : FDep) (l : List FSet) : Prop := ∀ n, cur d l = some n → toWrite d l n = false

/-- neither run writes: the sets found are alike -/
theorem getNew_like {d d' : FDep} (hd : Edited d d') (e : Env) (c : Bool) {l l' : List FSet} (h : l'.map erase = l.map erase) (hq : Quiet d l) (hq' : Quiet d' l') :
    (getNew d e c l).Like (getNew d' e c l') := by
  rcases cur_erase d d' hd.labels hd.body h with ⟨h1, h2⟩ | ⟨a, b, h1, h2, hab⟩
  · rw [getNew_none h1, getNew_none h2]
    cases c with
    | false => exact ⟨h, rfl, rfl⟩
    | true => exact create_erase hd e h
  · rw [getNew_cur h1, getNew_cur h2, sync_rest (hq a h1), sync_rest (hq' b h2)]
    have hn : b.set.name = a.set.name := by have := congrArg (fun f : FSet => f.set.name) hab; exact this
    rw [hn]
    cases e.depOk with
    | false => exact ⟨h, rfl, rfl⟩
    | true => exact ⟨h, rfl, rfl⟩

theorem sync_like {d d' : FDep} (hd : Edited d d') (e : Env) {l l' : List FSet} (hg : (getNew d e false l).Like (getNew d' e false l')) :
    (sync d' e l').map erase = (sync d e l).map erase := by
  unfold sync
  dsimp only
  rw [hg.2.2, hd.spec, map_erase (g := (·.set)) (fun _ => rfl) hg.old, omap_erase (g := (·.set)) (fun _ => rfl) hg.cur]
  split
  · exact hg.1
  · split
    · exact resize_erase _ hg.1
    · exact pausedCleanup_erase hd e hg.old (resize_erase _ hg.1)

theorem rolling_like {d d' : FDep} (hd : Edited d d') (e : Env) {l l' : List FSet} (hg : (getNew d e true l).Like (getNew d' e true l')) :
    (rolloutRolling d' e l').map erase = (rolloutRolling d e l).map erase := by
  unfold rolloutRolling
  dsimp only
  rw [hg.2.2]
  split
  · exact hg.1
  · have hc := hg.cur
    cases h1 : curSet (getNew d e true l) with
    | none =>
      rw [h1] at hc
      cases h2 : curSet (getNew d' e true l') with
      | none => exact hg.1
      | some b => rw [h2] at hc; cases hc
    | some a =>
      rw [h1] at hc
      cases h2 : curSet (getNew d' e true l') with
      | none => rw [h2] at hc; cases hc
      | some b =>
        rw [h2, Option.map_some, Option.map_some, Option.some.injEq] at hc
        dsimp only
        have hm : msOf b = msOf a := by have := congrArg msOf hc; exact this
        rw [hd.spec, hm, map_erase (g := msOf) (fun _ => rfl) hg.old]
        exact rolloutCleanup_erase hd e hg.old (resizeMS_erase _ _ hg.1)

theorem recreate_like {d d' : FDep} (hd : Edited d d') (e : Env) {l l' : List FSet} (h : l'.map erase = l.map erase)
    (hg : (getNew d e false l).Like (getNew d' e false l'))
    (hg2 : (getNew d e true (getNew d e false l).sets).Like (getNew d' e true (getNew d' e false l').sets)) :
    (rolloutRecreate d' e l').map erase = (rolloutRecreate d e l).map erase := by
  have hst : (fun n => ((l'.find? fun f => f.set.name == n).map (·.status)).getD 0) = fun n => ((l.find? fun f => f.set.name == n).map (·.status)).getD 0 := by
    funext n
    rw [omap_erase (g := (·.status)) (o := l.find? fun f => f.set.name == n) (o' := l'.find? fun f => f.set.name == n) (fun _ => rfl)
      (by rw [find_erase, find_erase, h])]
  unfold rolloutRecreate
  dsimp only
  rw [hg.2.2, hg.2.1, hd.spec, hst, map_erase (g := (·.set)) (fun _ => rfl) hg.old, omap_erase (g := (·.set)) (fun _ => rfl) hg.cur]
  split
  · exact hg.1
  · generalize hw : (decide ((Scale.active ((oldSets (getNew d e false l)).map (·.set))).length > 0) || _) = w
    have key : (if ((getNew d e false l).new.isNone && !w) = true then getNew d e true (getNew d e false l).sets else getNew d e false l).Like
        (if ((getNew d e false l).new.isNone && !w) = true then getNew d' e true (getNew d' e false l').sets else getNew d' e false l') := by
      split
      · exact hg2
      · exact hg
    revert key
    generalize (if ((getNew d e false l).new.isNone && !w) = true then getNew d e true (getNew d e false l).sets else getNew d e false l) = g2
    generalize (if ((getNew d e false l).new.isNone && !w) = true then getNew d' e true (getNew d' e false l').sets else getNew d' e false l') = g3
    intro key
    rw [key.2.2, omap_erase (g := (·.set)) (fun _ => rfl) key.cur]
    split
    · exact key.1
    · exact rolloutCleanup_erase hd e key.old (resize_erase _ key.1)

theorem getNew_quiet_sets {d : FDep} (e : Env) {l : List FSet} (hq : Quiet d l) : (getNew d e false l).sets = l ∧ (getNew d e false l).wrote = false := by
  cases hn : cur d l with
  | none => rw [getNew_none hn]; exact ⟨rfl, rfl⟩
  | some n =>
    rw [getNew_cur hn, sync_rest (hq n hn)]
    cases e.depOk <;> exact ⟨rfl, rfl⟩

theorem scaleOrRoll_like {d d' : FDep} (hd : Edited d d') (e : Env) {l l' : List FSet} (h : l'.map erase = l.map erase) (hq : Quiet d l) (hq' : Quiet d' l') :
    (scaleOrRoll d' e l').map erase = (scaleOrRoll d e l).map erase := by
  have hg := getNew_like hd e false h hq hq'
  unfold scaleOrRoll
  dsimp only
  rw [hg.2.2, (getNew_quiet_sets e hq).2, (getNew_quiet_sets e hq').2, hd.spec, map_erase (g := (·.set)) (fun _ => rfl) hg.old,
    omap_erase (g := (·.set)) (fun _ => rfl) hg.cur]
  split
  · exact hg.1
  · split
    · exact sync_like hd e hg
    · cases d.spec.strategy with
      | rolling => exact rolling_like hd e (getNew_like hd e true h hq hq')
      | recreate =>
        refine recreate_like hd e h hg ?_
        rw [(getNew_quiet_sets e hq).1, (getNew_quiet_sets e hq').1]
        exact getNew_like hd e true h hq hq'
      | other => exact h

/-- an unpaused run that writes the current set does nothing else -/
theorem scaleOrRoll_loud {d : FDep} (e : Env) {l : List FSet} {n : FSet} (hn : cur d l = some n) (hw : toWrite d l n = true) :
    scaleOrRoll d e l = if e.setOk then writeCur d l n else l := by
  unfold scaleOrRoll
  rw [getNew_cur hn, sync_write hw]
  cases e.setOk <;> rfl

theorem scaleOrRoll_loud_erase {d : FDep} (e : Env) {l : List FSet} (hu : Unique l) (h : ¬ Quiet d l) : (scaleOrRoll d e l).map erase = l.map erase := by
  unfold Quiet at h
  simp only [not_forall] at h
  obtain ⟨n, hn, hw⟩ := h
  rw [scaleOrRoll_loud e hn (by simpa using hw)]
  split
  · exact writeCur_erase d l hu (cur_mem hn)
  · rfl

theorem getNew_false_erase (d : FDep) (e : Env) {l : List FSet} (hu : Unique l) : (getNew d e false l).sets.map erase = l.map erase := by
  cases hn : cur d l with
  | none => rw [getNew_none hn]; rfl
  | some n =>
    rw [getNew_cur hn]
    cases hw : toWrite d l n with
    | true =>
      rw [sync_write hw]
      cases e.setOk with
      | true => exact writeCur_erase d l hu (cur_mem hn)
      | false => rfl
    | false =>
      rw [sync_rest hw]
      cases e.depOk <;> rfl

theorem getNew_true_erase {d d' : FDep} (hd : Edited d d') (e : Env) {l l' : List FSet} (hu : Unique l) (h : l'.map erase = l.map erase) :
    (getNew d' e true l').sets.map erase = (getNew d e true l).sets.map erase := by
  rcases cur_erase d d' hd.labels hd.body h with ⟨h1, h2⟩ | ⟨a, b, h1, h2, _⟩
  · rw [getNew_none h1, getNew_none h2]
    exact (create_erase hd e h).1
  · have k1 := getNew_false_erase d e hu
    have k2 := getNew_false_erase d' e (unique_erase h hu)
    rw [getNew_cur h1] at k1 ⊢
    rw [getNew_cur h2] at k2 ⊢
    rw [k1, k2, h]

theorem getNew_new {d : FDep} {e : Env} {c : Bool} {l : List FSet} {n : FSet} (hn : cur d l = some n) (he : (getNew d e c l).err = false) :
    (getNew d e c l).new = some n.set.name := by
  rw [getNew_cur hn] at he ⊢
  cases hw : toWrite d l n with
  | true =>
    rw [sync_write hw] at he ⊢
    cases hs : e.setOk with
    | true => rfl
    | false => rw [hs] at he; cases he
  | false =>
    rw [sync_rest hw] at he ⊢
    cases hs : e.depOk with
    | true => rfl
    | false => rw [hs] at he; cases he

/-- the sets found are alike, unless a call fails -/
theorem getNew_like_or {d d' : FDep} (hd : Edited d d') (e : Env) {l l' : List FSet} (hu : Unique l) (h : l'.map erase = l.map erase) :
    (getNew d e false l).Like (getNew d' e false l') ∨ (getNew d e false l).err = true ∨ (getNew d' e false l').err = true := by
  have hu' := unique_erase h hu
  cases h1 : (getNew d e false l).err with
  | true => exact .inr (.inl rfl)
  | false =>
    cases h2 : (getNew d' e false l').err with
    | true => exact .inr (.inr rfl)
    | false =>
      refine .inl ⟨by rw [getNew_false_erase d' e hu', getNew_false_erase d e hu, h], ?_, by rw [h1, h2]⟩
      rcases cur_erase d d' hd.labels hd.body h with ⟨k1, k2⟩ | ⟨a, b, k1, k2, hab⟩
      · rw [getNew_none k1, getNew_none k2]; rfl
      · have hn : b.set.name = a.set.name := by have := congrArg (fun f : FSet => f.set.name) hab; exact this
        rw [getNew_new k1 h1, getNew_new k2 h2, hn]

/-- once written, the current set needs no update -/
theorem write_quiet {d : FDep} (hk : (d.annotations.map Prod.fst).Nodup) {l : List FSet} (hu : Unique l) {n : FSet} (hn : cur d l = some n) : Quiet d (writeCur d l n) := by
  intro b hb
  have he := writeCur_erase d l hu (cur_mem hn)
  rcases cur_erase d d rfl rfl he with ⟨h1, _⟩ | ⟨a, b', h1, h2, hab⟩
  · rw [hn] at h1; cases h1
  · obtain rfl : n = a := Option.some.inj (hn.symm.trans h1)
    obtain rfl : b' = b := Option.some.inj (h2.symm.trans hb)
    have hname : b'.set.name = n.set.name := by have := congrArg (fun f : FSet => f.set.name) hab; exact this
    have hmem : b' ∈ writeCur d l n := cur_mem hb
    have : b' = written d l n := by
      unfold writeCur at hmem
      obtain ⟨x, hx, hxb⟩ := List.mem_map.1 hmem
      split at hxb
      · exact hxb.symm
      · rename_i hne
        rw [hxb] at hne
        exact absurd (by simpa using hname) hne
    rw [this]
    unfold toWrite
    have hw : (written d l n).set.name = n.set.name := rfl
    rw [diff_written, hw, others_written]
    exact Revision.synced_rests d.annotations hk _ _ _

theorem writeCur_exact (d : FDep) {l : List FSet} (hu : Unique l) {n : FSet} (hn : n ∈ l) :
    List.Forall₂ (fun a b => (a = n → b = written d l n) ∧ (a ≠ n → b = a)) l (writeCur d l n) := by
  refine forall2_map _ _ fun a ha => ?_
  split
  · rename_i h
    have : a = n := unique_eq l hu a n ha hn (by simpa using h)
    exact ⟨fun _ => rfl, fun e => absurd this e⟩
  · rename_i h
    exact ⟨fun e => absurd (by rw [e]; simp) h, fun _ => rfl⟩

/-! ### The template of the current set -/

/-- the revision of a set that is to get a new one can always be read -/
theorem newRev_reads (old : List SMap) : ∃ n, atoi (Revision.newRevisionText old) = some n := by
  have key : ∀ (l : List SMap) (m : Int), m < 2^63 → Revision.maxRevision l m < 2^63 := by
    intro l
    induction l with
    | nil => exact fun m h => h
    | cons a l ih =>
      intro m hm
      rw [Revision.maxRevision]
      cases hv : Revision.revision a with
      | none => exact ih m hm
      | some v =>
        dsimp only
        refine ih _ ?_
        split
        · unfold Revision.revision at hv
          split at hv
          · exact (atoi_range _ _ hv).2
          · cases hv; decide
        · exact hm
  by_cases h : Revision.maxRevision old 0 + 1 < 2^63
  · exact ⟨_, Revision.newRevisionText_atoi old h⟩
  · have h2 : Revision.maxRevision old 0 = 2^63 - 1 := by have := key old 0 (by decide); omega
    unfold Revision.newRevisionText
    rw [h2]
    exact ⟨-2^63, by decide +kernel⟩

/-- a current set that is not written already has the values of the deployment, if its revision can be read -/
theorem quiet_agrees {d : FDep} {l : List FSet} {n : FSet} (hw : toWrite d l n = false) (hr : Revision.Readable n.annotations) :
    inPlace d.template n.tmpl = n.tmpl ∧ n.minReady = d.minReady := by
  obtain ⟨v, hv⟩ := newRev_reads ((others l n.set.name).map (·.annotations))
  unfold toWrite at hw
  revert hv hw
  generalize Revision.newRevisionText ((others l n.set.name).map (·.annotations)) = rev
  intro hw hv
  unfold Revision.synced at hw
  dsimp only at hw
  simp only [Bool.or_eq_false_iff] at hw
  obtain ⟨⟨⟨⟨h1, h2⟩, h3⟩, h4⟩, h5⟩ := hw
  -- the revision stays readable
  have hc : ∀ (ann : SMap) (ch : Bool) , (∃ o, (if ann.get Revision.revKey == "" then some 0 else atoi (ann.get Revision.revKey)) = some o) →
      (∃ o, (if (Revision.bumpRevision rev ann ch).1.get Revision.revKey == "" then some 0 else atoi ((Revision.bumpRevision rev ann ch).1.get Revision.revKey)) = some o) ∧
      ((Revision.bumpRevision rev ann ch).2 = false → ch = false) := by
    intro ann ch ⟨o, ho⟩
    obtain ⟨b1, b2⟩ := Revision.bump_rev rev ann ch o v ho hv
    refine ⟨?_, fun h => ?_⟩
    · by_cases hlt : o < v
      · rw [if_pos hlt] at b1
        have he : rev ≠ "" := fun e => by rw [e, Revision.atoi_empty] at hv; cases hv
        exact ⟨v, by rw [Revision.get_of_lookup b1]; simp [he, hv]⟩
      · rw [if_neg hlt] at b1
        have hg : (Revision.bumpRevision rev ann ch).1.get Revision.revKey = ann.get Revision.revKey := by unfold SMap.get; rw [b1]
        exact ⟨o, by rw [hg, ho]⟩
    · rw [b2] at h
      exact (Bool.or_eq_false_iff.1 h).1
  have h0 : ∃ o, (if (Revision.copyAnnotations d.annotations n.annotations false).1.get Revision.revKey == "" then some 0
      else atoi ((Revision.copyAnnotations d.annotations n.annotations false).1.get Revision.revKey)) = some o := by
    have : (Revision.copyAnnotations d.annotations n.annotations false).1.get Revision.revKey = n.annotations.get Revision.revKey := by
      unfold SMap.get
      rw [Revision.lookup_copy _ _ _ _ Revision.revKey_skipped]
    rw [this]
    exact Revision.readable_old hr
  obtain ⟨r1, _⟩ := hc _ (Revision.copyAnnotations d.annotations n.annotations false).2 h0
  obtain ⟨r2, k2⟩ := hc _ (diff d n).nodeTemplate r1
  obtain ⟨_, k3⟩ := hc _ (diff d n).config r2
  have e1 := k2 h3
  have e2 := k3 h4
  unfold diff at e1 e2 h5 h2
  have e1' : n.tmpl.nodeTemplate = d.template.nodeTemplate := by simpa using e1
  have e2' : n.tmpl.config = d.template.config := by simpa using e2
  have e3' : n.tmpl.classKind = d.template.classKind := by simpa using h5
  refine ⟨?_, by simpa using h2⟩
  unfold inPlace
  rw [← e1', ← e2', ← e3']

/-- the same set with the same template -/
def SameT (a b : FSet) : Prop := b.set.name = a.set.name ∧ b.tmpl = a.tmpl

theorem SameT.refl (a : FSet) : SameT a a := ⟨rfl, rfl⟩
theorem SameT.trans (a b c : FSet) (h1 : SameT a b) (h2 : SameT b c) : SameT a c := ⟨h2.1.trans h1.1, h2.2.trans h1.2⟩

theorem resize_sameT (l : List FSet) (r : List Scale.MSet) : List.Forall₂ SameT l (resize l r) := by
  rw [resize_map]
  refine forall2_map _ _ fun a _ => ?_
  unfold refit
  split
  · rename_i s hs
    exact ⟨by simpa using List.find?_some hs, rfl⟩
  · exact SameT.refl a

theorem resizeMS_sameT (d : Dep) (l : List FSet) (r : List MS) : List.Forall₂ SameT l (resizeMS d l r) := by
  rw [resizeMS_map]
  refine forall2_map _ _ fun a _ => ⟨resized_name d r a, ?_⟩
  unfold resized withSize
  split
  · split <;> rfl
  · rfl

theorem cleanup_sameT (d : FDep) (e : Env) (old l : List FSet) : List.Forall₂ SameT l (cleanup d e old l) := by
  unfold cleanup
  dsimp only
  refine forall2_map _ _ fun a _ => ?_
  split <;> exact ⟨rfl, rfl⟩

theorem rolloutCleanup_sameT (d : FDep) (e : Env) (old l : List FSet) : List.Forall₂ SameT l (rolloutCleanup d e old l) := by
  unfold rolloutCleanup
  split
  · exact cleanup_sameT d e old l
  · exact forall2_refl SameT.refl l

theorem pausedCleanup_sameT (d : FDep) (e : Env) (old l : List FSet) : List.Forall₂ SameT l (pausedCleanup d e old l) := by
  unfold pausedCleanup
  split
  · exact cleanup_sameT d e old l
  · exact forall2_refl SameT.refl l

theorem getNew_some {d : FDep} (e : Env) (c : Bool) {l : List FSet} {n : FSet} (hn : cur d l = some n) :
    ((getNew d e c l).sets = l ∧ (toWrite d l n = false ∨ e.setOk = false) ∨ (getNew d e c l).sets = writeCur d l n ∧ toWrite d l n = true) ∧
    ((getNew d e c l).err = false → (getNew d e c l).new.isNone = false) := by
  rw [getNew_cur hn]
  cases hw : toWrite d l n with
  | true =>
    rw [sync_write hw]
    cases e.setOk with
    | true => exact ⟨.inr ⟨rfl, rfl⟩, fun _ => rfl⟩
    | false => exact ⟨.inl ⟨rfl, .inr rfl⟩, fun h => by cases h⟩
  | false =>
    rw [sync_rest hw]
    cases e.depOk with
    | true => exact ⟨.inl ⟨rfl, .inl rfl⟩, fun _ => rfl⟩
    | false => exact ⟨.inl ⟨rfl, .inl rfl⟩, fun h => by cases h⟩

theorem sync_sameT (d : FDep) (e : Env) (l : List FSet) : List.Forall₂ SameT (getNew d e false l).sets (sync d e l) := by
  unfold sync
  dsimp only
  split
  · exact forall2_refl SameT.refl _
  · split
    · exact resize_sameT _ _
    · exact forall2_trans SameT.trans (resize_sameT _ _) (pausedCleanup_sameT _ _ _ _)

theorem rolling_sameT (d : FDep) (e : Env) (l : List FSet) : List.Forall₂ SameT (getNew d e true l).sets (rolloutRolling d e l) := by
  unfold rolloutRolling
  dsimp only
  split
  · exact forall2_refl SameT.refl _
  · split
    · exact forall2_refl SameT.refl _
    · exact forall2_trans SameT.trans (resizeMS_sameT _ _ _) (rolloutCleanup_sameT _ _ _ _)

theorem recreate_sameT {d : FDep} (e : Env) {l : List FSet} {n : FSet} (hn : cur d l = some n) :
    List.Forall₂ SameT (getNew d e false l).sets (rolloutRecreate d e l) := by
  unfold rolloutRecreate
  dsimp only
  split
  · exact forall2_refl SameT.refl _
  · rename_i h
    rw [(getNew_some e false hn).2 (by simpa using h)]
    simp only [Bool.false_and, Bool.false_eq_true, if_false]
    split
    · exact forall2_refl SameT.refl _
    · exact forall2_trans SameT.trans (resize_sameT _ _) (rolloutCleanup_sameT _ _ _ _)

/-- a run that finds the current set leaves all templates alone, or brings the one of the current set up to date -/
theorem run_tmpl {d : FDep} (ha : d.deleting = false) (hr : d.rollbackTo = none) (e : Env) {l : List FSet} {n : FSet} (hn : cur d l = some n) :
    List.Forall₂ SameT l (reconcile d e l).sets ∨ List.Forall₂ SameT (writeCur d l n) (reconcile d e l).sets := by
  have hrefl := forall2_refl SameT.refl l
  have lift : ∀ (c : Bool) (out : List FSet), List.Forall₂ SameT (getNew d e c l).sets out →
      List.Forall₂ SameT l out ∨ List.Forall₂ SameT (writeCur d l n) out := by
    intro c out h
    rcases (getNew_some e c hn).1 with ⟨h1, h2⟩ | ⟨h1, _⟩
    · rw [h1] at h; exact .inl h
    · rw [h1] at h; exact .inr h
  unfold reconcile
  split
  · exact .inl hrefl
  · split
    · exact .inl hrefl
    · split
      · exact .inl hrefl
      · rw [ha]
        simp only [Bool.false_eq_true, if_false]
        split
        · exact .inl hrefl
        · split
          · exact lift false _ (sync_sameT d e l)
          · rw [hr]
            dsimp only
            unfold scaleOrRoll
            dsimp only
            split
            · exact lift false _ (forall2_refl SameT.refl _)
            · split
              · exact lift false _ (sync_sameT d e l)
              · split
                · exact lift false _ (recreate_sameT e hn)
                · exact lift true _ (rolling_sameT d e l)
                · exact .inl hrefl

/-- a run that gets through brings the template of the current set up to date -/
theorem run_smooth {d : FDep} (ha : d.deleting = false) (hr : d.rollbackTo = none) (hsel : d.selectsAll = false) {e : Env} (hv : e.valid = true) (hl : e.listOk = true)
    (hp : e.preOk = true) (hs : e.setOk = true) {l : List FSet} {n : FSet} (hn : cur d l = some n) :
    (List.Forall₂ SameT l (reconcile d e l).sets ∧ toWrite d l n = false) ∨ List.Forall₂ SameT (writeCur d l n) (reconcile d e l).sets := by
  have lift : ∀ (c : Bool) (out : List FSet), List.Forall₂ SameT (getNew d e c l).sets out →
      (List.Forall₂ SameT l out ∧ toWrite d l n = false) ∨ List.Forall₂ SameT (writeCur d l n) out := by
    intro c out h
    rcases (getNew_some e c hn).1 with ⟨h1, h2⟩ | ⟨h1, _⟩
    · rw [h1] at h
      rcases h2 with h2 | h2
      · exact .inl ⟨h, h2⟩
      · rw [hs] at h2; cases h2
    · rw [h1] at h; exact .inr h
  unfold reconcile
  rw [hv, hsel, hl, ha, hp]
  simp only [Bool.not_true, Bool.false_eq_true, if_false]
  split
  · exact lift false _ (sync_sameT d e l)
  · rw [hr]
    dsimp only
    unfold scaleOrRoll
    dsimp only
    split
    · exact lift false _ (forall2_refl SameT.refl _)
    · rename_i hg
      split
      · exact lift false _ (sync_sameT d e l)
      · split
        · exact lift false _ (recreate_sameT e hn)
        · exact lift true _ (rolling_sameT d e l)
        · refine .inl ⟨forall2_refl SameT.refl l, ?_⟩
          cases hw : toWrite d l n with
          | false => rfl
          | true =>
            rw [getNew_cur hn, sync_write hw, hs] at hg
            exact absurd rfl hg

end MCM.Dispatch
