import Verif.Model.DepRun
import Verif.Props.Claim
import Verif.Props.Dispatch
/-!
# C135 – deployments keep out of each other's way
-/
namespace MCM.DepRun
open MCM MCM.Template MCM.Dispatch

/-! ## Independent specification -/

/-- the uid of the controller of a machine set -/
def owner (i : Item) : Option String := Claim.controllerOf i.obj

/-- The run may work on the set: it belongs to the deployment, or it belongs to nobody, matches the selector, is not being deleted, and the deployment is neither
being deleted nor found gone by the read before the adoption. -/
def Within (e : Env) (D : DepObj) (i : Item) : Prop :=
  owner i = some D.uid ∨ (owner i = none ∧ D.sel i.labels = true ∧ i.f.deleting = false ∧ D.d.deleting = false ∧ Claim.LiveOk ⟨D.uid, D.d.deleting⟩ e.live)

/-- no two sets have the same name -/
def Names (l : List Item) : Prop := (l.map Item.name).Nodup

/-- the sets of a deployment -/
def setsOf (u : String) (l : List Item) : List Item := l.filter fun i => owner i == some u

/-- Every name is reserved for one deployment, and every set has the controller its name is reserved for; names are unique; deployments are found under their uids. -/
structure Reserved (own : String → String) (s : Cluster) : Prop where
  names : Names s.items
  owned : ∀ i ∈ s.items, owner i = some (own i.name)
  uids : ∀ u D, s.deps u = some D → D.uid = u

/-- what is done respects the reservation -/
def Fair (own : String → String) : Op → Prop
  | .run u e => own e.base.fresh = u
  | .edit u D => ∀ D', D = some D' → D'.uid = u
  | .write _ _ => True
  | .remove _ => True
  | .add i => owner i = some (own i.name)

/-- the step is about the deployment or one of its sets -/
def concerns (own : String → String) (u : String) : Op → Bool
  | .run v _ => v == u
  | .edit v _ => v == u
  | .write n _ => own n == u
  | .remove n => own n == u
  | .add i => own i.name == u

/-- what belongs to a deployment: the deployment itself and its sets -/
def view (u : String) (s : Cluster) : Option DepObj × List Item := (s.deps u, setsOf u s.items)

/-! ## Lemmas -/

theorem names_eq {l : List Item} (h : Names l) {a b : Item} (ha : a ∈ l) (hb : b ∈ l) (hn : a.name = b.name) : a = b := by
  unfold Names at h
  induction l with
  | nil => cases ha
  | cons x l ih =>
    rw [List.map_cons, List.nodup_cons] at h
    rcases List.mem_cons.1 ha with ha' | ha' <;> rcases List.mem_cons.1 hb with hb' | hb'
    · rw [ha', hb']
    · exact absurd (List.mem_map.2 ⟨b, hb', by rw [← hn, ha']⟩) h.1
    · exact absurd (List.mem_map.2 ⟨a, ha', by rw [hn, hb']⟩) h.1
    · exact ih h.2 ha' hb'

/-! ### Claims -/

theorem claim_within {e : Env} {D : DepObj} {items : List Item} {i : Item}
    (h : i.obj ∈ (claim e D items).1 ∨ .adopt i.obj ∈ (claim e D items).2.2 ∨ .release i.obj ∈ (claim e D items).2.2) : Within e D i :=
  (Claim.claimAll_within _ none (by intro b hb; cases hb) _ h).2

theorem patched_cases (e : Env) (D : DepObj) (items : List Item) (i : Item) :
    patched e D (claim e D items).2.2 i = i ∨ (Within e D i ∧ patched e D (claim e D items).2.2 i = { i with owners := [⟨D.uid, true⟩] }) := by
  unfold patched
  split
  · rename_i h
    simp only [Bool.and_eq_true, List.contains_iff_mem] at h
    exact .inr ⟨claim_within (.inr (.inl h.1)), rfl⟩
  · split
    · rename_i h
      simp only [Bool.and_eq_true, List.contains_iff_mem] at h
      exact .inr ⟨claim_within (.inr (.inr h.1)), rfl⟩
    · exact .inl rfl

theorem patched_name (e : Env) (D : DepObj) (effs : List Claim.Eff) (i : Item) : (patched e D effs i).name = i.name := by
  unfold patched
  split
  · rfl
  · split <;> rfl

theorem mine_within {e : Env} {D : DepObj} {items : List Item} {i : Item} (h : i ∈ mine e D items) : i ∈ items ∧ Within e D i := by
  unfold mine at h
  rw [List.mem_filter, List.contains_iff_mem] at h
  exact ⟨h.1, claim_within (.inl h.2)⟩

theorem mine_unique {e : Env} {D : DepObj} {items : List Item} (hn : Names items) : Dispatch.Unique ((mine e D items).map (·.f)) := by
  unfold Dispatch.Unique
  rw [List.map_map]
  exact hn.sublist (List.filter_sublist.map _)

/-! ### The rest of the run -/

theorem created_done {e : Env} {D : DepObj} {items : List Item} (h : created e D items = .done ∨ created e D items = .doneThenError) : ∀ j ∈ items, j.name ≠ e.base.fresh := by
  unfold created at h
  split at h
  · split at h <;> simp at h
  · rename_i hf
    intro j hj
    simpa using List.find?_eq_none.1 hf j hj

theorem created_existing {e : Env} {D : DepObj} {items : List Item} {x : FSet} (h : created e D items = .existing x) :
    ∃ j ∈ items, j.name = e.base.fresh ∧ owner j = some D.uid ∧ j.f = x := by
  unfold created at h
  split at h
  · rename_i j hj
    split at h
    · rename_i hc
      simp only [Bool.and_eq_true, beq_iff_eq] at hc
      exact ⟨j, List.mem_of_find?_eq_some hj, by simpa using List.find?_some hj, hc.1, by injection h⟩
    · cases h
  · split at h
    · cases h
    · rename_i hc; exact absurd h (hc x)

/-- the sets that the rest of the run leaves -/
def left (e : Env) (D : DepObj) (items : List Item) : List FSet := (reconcile (guarded e D).d (rest e D items) ((mine e D items).map (·.f))).sets

theorem left_cases {e : Env} {D : DepObj} {items : List Item} (hn : Names items) :
    List.Forall₂ Kept ((mine e D items).map (·.f)) (left e D items) ∨
    ∃ x, ((x.set.name = e.base.fresh ∧ (∀ j ∈ items, j.name ≠ e.base.fresh) ∧ D.d.deleting = false ∧ D.d.paused = false ∧ SameTemplate x.tmpl D.d.template) ∨
        ∃ j ∈ items, Within e D j ∧ j.name = e.base.fresh ∧ j.f = x) ∧
      List.Forall₂ Kept ((mine e D items).map (·.f) ++ [x]) (left e D items) := by
  have hu := mine_unique (e := e) (D := D) hn
  have hdel : (guarded e D).d.deleting = D.d.deleting := by unfold guarded; split <;> rfl
  have htm : (guarded e D).d.template = D.d.template := by unfold guarded; split <;> rfl
  have hpa : (guarded e D).d.paused = D.d.paused := by unfold guarded; split <;> rfl
  unfold left
  cases hd : D.d.deleting with
  | true =>
    exact .inl ((C76_deleting_only_marks _ _ _ hu (hdel.trans hd)).1.imp fun _ _ h => h.1)
  | false =>
    cases hp : D.d.paused with
    | true => exact .inl (C74_paused_keeps_sets_partial _ _ _ hu (hpa.trans hp) (hdel.trans hd)).2
    | false =>
      rcases reconcile_adds (guarded e D).d (rest e D items) _ hu (hdel.trans hd) with h | ⟨_, x, hx, h⟩
      · exact .inl h
      · refine .inr ⟨x, ?_, h⟩
        rcases hx with ⟨h1, h2, _, h3⟩ | hx
        · refine .inl ⟨h2, ?_, rfl, rfl, by rw [htm] at h1; exact h1⟩
          intro j hj
          rw [← patched_name e D (claim e D items).2.2 j]
          exact created_done h3 _ (List.mem_map.2 ⟨j, hj, rfl⟩)
        · right
          obtain ⟨j, hj, h1, h2, h3⟩ := created_existing hx
          obtain ⟨i, hi, rfl⟩ := List.mem_map.1 hj
          rw [patched_name] at h1
          refine ⟨i, hi, ?_, h1, ?_⟩
          · rcases patched_cases e D items i with h | ⟨h, _⟩
            · rw [h] at h2; exact .inl h2
            · exact h
          · rcases patched_cases e D items i with h | ⟨_, h⟩
            · rw [h] at h3; exact h3
            · rw [h] at h3; exact h3

theorem left_names {e : Env} {D : DepObj} {items : List Item} (hn : Names items) {f : FSet} (hf : f ∈ left e D items) :
    (∃ j ∈ items, Within e D j ∧ j.name = f.set.name) ∨ (f.set.name = e.base.fresh ∧ ∀ j ∈ items, j.name ≠ e.base.fresh) := by
  have hm : ∀ {a : FSet}, a ∈ (mine e D items).map (·.f) → f.set.name = a.set.name → ∃ j ∈ items, Within e D j ∧ j.name = f.set.name := by
    intro a ha hfa
    obtain ⟨j, hj, rfl⟩ := List.mem_map.1 ha
    obtain ⟨h1, h2⟩ := mine_within hj
    exact ⟨j, h1, h2, hfa.symm⟩
  have mem2 : ∀ {l l' : List FSet}, List.Forall₂ Kept l l' → ∀ b ∈ l', ∃ a ∈ l, Kept a b := by
    intro l l' h
    induction h with
    | nil => intro b hb; cases hb
    | cons h1 _ ih =>
      intro b hb
      rcases List.mem_cons.1 hb with rfl | hb
      · exact ⟨_, List.mem_cons_self, h1⟩
      · obtain ⟨a, ha, hk⟩ := ih b hb; exact ⟨a, List.mem_cons_of_mem _ ha, hk⟩
  rcases left_cases hn with h | ⟨x, hx, h⟩
  · obtain ⟨a, ha, hk⟩ := mem2 h f hf
    exact .inl (hm ha hk.1)
  · obtain ⟨a, ha, hk⟩ := mem2 h f hf
    rcases List.mem_append.1 ha with ha | ha
    · exact .inl (hm ha hk.1)
    · obtain rfl := List.mem_singleton.1 ha
      rcases hx with ⟨h1, h2, _⟩ | ⟨j, hj, h1, _, h3⟩
      · exact .inr ⟨hk.1.trans h1, h2⟩
      · exact .inl ⟨j, hj, h1, by rw [hk.1, ← h3]; rfl⟩

theorem settled_none {out : List FSet} {i : Item} (h : ∀ f ∈ out, f.set.name ≠ i.name) : settled out i = i := by
  have : out.find? (fun f => f.set.name == i.name) = none := List.find?_eq_none.2 fun f hf => by simpa using h f hf
  unfold settled
  rw [this]

theorem settled_owner (out : List FSet) (i : Item) : owner (settled out i) = owner i := by
  unfold settled
  split <;> rfl

theorem settled_name (out : List FSet) (i : Item) : (settled out i).name = i.name := by
  unfold settled
  split
  · rename_i f hf
    have : (f.set.name == i.name) = true := List.find?_some (p := fun f : FSet => f.set.name == i.name) hf
    exact beq_iff_eq.1 this
  · rfl

/-! ## C135: what a run leaves alone, and what it adds -/

theorem merge_keeps {e : Env} {D : DepObj} {l : List Item} {out : List FSet} {i : Item} (hi : i ∈ l) (h : ∀ f ∈ out, f.set.name ≠ i.name) : i ∈ merge e D l out := by
  unfold merge
  refine List.mem_append_left _ (List.mem_map.2 ⟨i, hi, settled_none h⟩)

/-- a machine set the run may not work on is afterwards what it was -/
theorem C135_others_untouched (e : Env) (D : DepObj) (items : List Item) (hn : Names items) (i : Item) (hi : i ∈ items) (hw : ¬ Within e D i) : i ∈ (run e D items).items := by
  have hp : i ∈ items.map (patched e D (claim e D items).2.2) := by
    refine List.mem_map.2 ⟨i, hi, ?_⟩
    rcases patched_cases e D items i with h | ⟨h, _⟩
    · exact h
    · exact absurd h hw
  unfold run
  split
  · exact hi
  split
  · exact hi
  dsimp only
  split
  · exact hp
  · refine merge_keeps hp fun f hf he => ?_
    rcases left_names hn hf with ⟨j, hj, hwj, hnj⟩ | ⟨h1, h2⟩
    · obtain rfl := names_eq hn hj hi (hnj.trans he)
      exact hw hwj
    · exact h2 i hi (he.symm.trans h1)

/-- in particular, a machine set of another deployment is -/
theorem C135_foreign_untouched (e : Env) (D : DepObj) (items : List Item) (hn : Names items) (i : Item) (hi : i ∈ items) (v : String) (hv : owner i = some v) (hne : v ≠ D.uid) :
    i ∈ (run e D items).items := by
  refine C135_others_untouched e D items hn i hi ?_
  rintro (h | ⟨h, _⟩)
  · exact hne (Option.some.inj (hv.symm.trans h))
  · rw [hv] at h; cases h

/-- what is there after a run: a set that was there, with the owners it had or with the deployment as its owner, or a new one of the deployment with its template -/
theorem C135_only_own_added (e : Env) (D : DepObj) (items : List Item) (hn : Names items) (j : Item) (hj : j ∈ (run e D items).items) :
    (∃ i ∈ items, j.name = i.name ∧ j.uid = i.uid ∧ j.labels = i.labels ∧ (j = i ∨ (Within e D i ∧ (j.owners = i.owners ∨ j.owners = [⟨D.uid, true⟩])))) ∨
    ((∀ i ∈ items, j.name ≠ i.name) ∧ j.name = e.base.fresh ∧ j.owners = [⟨D.uid, true⟩] ∧ D.d.deleting = false ∧ D.d.paused = false ∧
      j.f.tmpl.body = D.d.template.body) := by
  have old : ∀ j ∈ items, (∃ i ∈ items, j.name = i.name ∧ j.uid = i.uid ∧ j.labels = i.labels ∧ (j = i ∨ (Within e D i ∧ (j.owners = i.owners ∨ j.owners = [⟨D.uid, true⟩])))) :=
    fun j hj => ⟨j, hj, rfl, rfl, rfl, .inl rfl⟩
  have mid : ∀ j ∈ items.map (patched e D (claim e D items).2.2),
      (∃ i ∈ items, j.name = i.name ∧ j.uid = i.uid ∧ j.labels = i.labels ∧ (j = i ∨ (Within e D i ∧ (j.owners = i.owners ∨ j.owners = [⟨D.uid, true⟩])))) := by
    intro j hj
    obtain ⟨i, hi, rfl⟩ := List.mem_map.1 hj
    rcases patched_cases e D items i with h | ⟨h, h'⟩
    · rw [h]; exact old i hi
    · rw [h']; exact ⟨i, hi, rfl, rfl, rfl, .inr ⟨h, .inr rfl⟩⟩
  unfold run at hj
  split at hj
  · exact .inl (old j hj)
  split at hj
  · exact .inl (old j hj)
  dsimp only at hj
  split at hj
  · exact .inl (mid j hj)
  unfold merge at hj
  rcases List.mem_append.1 hj with hj | hj
  · left
    obtain ⟨k, hk, rfl⟩ := List.mem_map.1 hj
    unfold settled
    split
    · rename_i f hf
      have hfn : f.set.name = k.name := by simpa using List.find?_some hf
      obtain ⟨i, hi, h1, h2, h3, h4⟩ := mid k hk
      refine ⟨i, hi, hfn.trans h1, h2, h3, .inr ?_⟩
      have hwi : Within e D i := by
        rcases left_names hn (List.mem_of_find?_eq_some hf) with ⟨a, ha, hwa, hna⟩ | ⟨_, h6⟩
        · obtain rfl := names_eq hn ha hi (hna.trans (hfn.trans h1))
          exact hwa
        · rename_i h5
          exact absurd ((h1.symm.trans hfn.symm).trans h5) (h6 i hi)
      refine ⟨hwi, ?_⟩
      rcases h4 with h4 | ⟨_, h4⟩
      · exact .inl (by rw [h4])
      · exact h4
    · exact mid k hk
  · right
    obtain ⟨f, hf, rfl⟩ := List.mem_map.1 hj
    rw [List.mem_filter] at hf
    obtain ⟨hf, hno⟩ := hf
    have hno' : ∀ i ∈ items, f.set.name ≠ i.name := by
      intro i hi he
      simp only [Bool.not_eq_true', List.any_eq_false, beq_iff_eq, List.mem_map, forall_exists_index, and_imp, forall_apply_eq_imp_iff₂, patched_name] at hno
      exact hno i hi he.symm
    have mem2 : ∀ {l l' : List FSet}, List.Forall₂ Kept l l' → ∀ b ∈ l', ∃ a ∈ l, Kept a b := by
      intro l l' h
      induction h with
      | nil => intro b hb; cases hb
      | cons h1 _ ih =>
        intro b hb
        rcases List.mem_cons.1 hb with rfl | hb
        · exact ⟨_, List.mem_cons_self, h1⟩
        · obtain ⟨a, ha, hk⟩ := ih b hb; exact ⟨a, List.mem_cons_of_mem _ ha, hk⟩
    have notmine : ∀ {a : FSet}, a ∈ (mine e D items).map (·.f) → Kept a f → False := by
      intro a ha hk
      obtain ⟨i, hi, rfl⟩ := List.mem_map.1 ha
      exact hno' i (mine_within hi).1 hk.1
    refine ⟨hno', ?_⟩
    rcases left_cases hn with h | ⟨x, hx, h⟩
    · obtain ⟨a, ha, hk⟩ := mem2 h f hf
      exact (notmine ha hk).elim
    · obtain ⟨a, ha, hk⟩ := mem2 h f hf
      rcases List.mem_append.1 ha with ha | ha
      · exact (notmine ha hk).elim
      · obtain rfl := List.mem_singleton.1 ha
        rcases hx with ⟨h1, h2, h3, h4, h5⟩ | ⟨i, hi, _, _, h3⟩
        · exact ⟨hk.1.trans h1, rfl, h3, h4, hk.2.2.trans h5.2⟩
        · exact absurd (show f.set.name = i.name by rw [hk.1, ← h3]; rfl) (hno' i hi)

/-- **C135**: a patch of a set that is refused (the set has gone or has another uid) changes nobody's owners -/
theorem C135_refused (e : Env) (D : DepObj) (items : List Item) (hn : Names items) (i : Item) (hi : i ∈ items) (he : e.patch i.obj = some .notFound ∨ e.patch i.obj = some .invalid) :
    ∀ j ∈ (run e D items).items, j.name = i.name → j.owners = i.owners := by
  have hp : patched e D (claim e D items).2.2 i = i := by
    have hc : carried e i.obj = false := by unfold carried; rcases he with h | h <;> rw [h]
    unfold patched
    rw [hc, Bool.and_false, Bool.and_false]
    rfl
  have old : ∀ j ∈ items, j.name = i.name → j.owners = i.owners := fun j hj h => by rw [names_eq hn hj hi h]
  have mid : ∀ j ∈ items.map (patched e D (claim e D items).2.2), j.name = i.name → j.owners = i.owners := by
    intro j hj h
    obtain ⟨k, hk, rfl⟩ := List.mem_map.1 hj
    rw [patched_name] at h
    rw [names_eq hn hk hi h, hp]
  intro j hj hname
  unfold run at hj
  split at hj
  · exact old j hj hname
  split at hj
  · exact old j hj hname
  dsimp only at hj
  split at hj
  · exact mid j hj hname
  unfold merge at hj
  rcases List.mem_append.1 hj with hj | hj
  · obtain ⟨k, hk, rfl⟩ := List.mem_map.1 hj
    unfold settled at hname ⊢
    split at hname
    · rename_i g hg
      exact mid k hk ((show g.set.name = k.name by simpa using List.find?_some hg).symm.trans hname)
    · exact mid k hk hname
  · obtain ⟨f, hf, rfl⟩ := List.mem_map.1 hj
    rw [List.mem_filter] at hf
    have hno := hf.2
    simp only [Bool.not_eq_true', List.any_eq_false, beq_iff_eq, List.mem_map, forall_exists_index, and_imp, forall_apply_eq_imp_iff₂, patched_name] at hno
    exact absurd hname.symm (hno i hi)

/-- **C135**: a run with a valid deployment that is not being deleted leaves it with the finalizer, if it had it or it can be written; nobody else gets it, and only a deployment that is being
deleted loses it -/
theorem C135_finalizer (e : Env) (D : DepObj) (items : List Item) :
    (run e D items).dep.uid = D.uid ∧
    (D.d.deleting = false → (run e D items).dep.d.finalizer = (D.d.finalizer || (e.base.valid && e.addOk))) ∧
    (D.d.deleting = true → (run e D items).dep.d.finalizer = true → D.d.finalizer = true) := by
  have hg : (guarded e D).d.deleting = D.d.deleting := by unfold guarded; split <;> rfl
  have hf : (guarded e D).d.finalizer = if D.d.deleting then D.d.finalizer else D.d.finalizer || e.addOk := by
    unfold guarded
    cases D.d.deleting <;> cases e.addOk <;> simp
  have hu : (guarded e D).uid = D.uid := by unfold guarded; split <;> rfl
  have hr : ∀ (r : Dispatch.Env) (l : List FSet), (D.d.deleting = false → (reconcile (guarded e D).d r l).dep.finalizer = (D.d.finalizer || e.addOk)) ∧
      (D.d.deleting = true → (reconcile (guarded e D).d r l).dep.finalizer = true → D.d.finalizer = true) := by
    intro r l
    have hk : D.d.deleting = false → (reconcile (guarded e D).d r l).dep.finalizer = (guarded e D).d.finalizer := by
      intro hd
      unfold reconcile
      split
      · rfl
      split
      · rfl
      split
      · rfl
      rw [hg, hd, if_neg (by decide)]
      split
      · rfl
      split
      · rfl
      split
      · unfold rollback
        dsimp only
        split <;> rfl
      · rfl
    refine ⟨fun hd => by rw [hk hd, hf, hd]; rfl, fun hd ht => ?_⟩
    rw [hd, if_pos rfl] at hf
    rw [← hf]
    revert ht
    unfold reconcile
    split
    · exact id
    split
    · exact id
    split
    · exact id
    rw [hg, hd, if_pos rfl]
    unfold reconcileDeleting
    split
    · exact id
    split
    · intro h; cases h
    · exact id
  unfold run
  split
  · rename_i hv
    refine ⟨rfl, fun _ => ?_, fun _ => id⟩
    rw [show e.base.valid = false by simpa using hv]
    simp
  · rename_i hv
    have hv' : e.base.valid = true := by simpa using hv
    rw [hv', Bool.true_and]
    have hguard : (D.d.deleting = false → (guarded e D).d.finalizer = (D.d.finalizer || e.addOk)) ∧ (D.d.deleting = true → (guarded e D).d.finalizer = true → D.d.finalizer = true) :=
      ⟨fun hd => by rw [hf, hd]; rfl, fun hd h => by rw [hf, hd, if_pos rfl] at h; exact h⟩
    split
    · exact ⟨hu, hguard⟩
    · dsimp only
      split
      · exact ⟨hu, hguard⟩
      · exact ⟨rfl, hr _ _⟩

/-! ## C135: what happens to other deployments makes no difference -/

theorem filter_map_comm {α β : Type} (p : β → Bool) (q : α → Bool) (g : α → β) : ∀ l : List α, (∀ a ∈ l, p (g a) = q a) → (l.map g).filter p = (l.filter q).map g
  | [], _ => rfl
  | a :: l, h => by
    have ih := filter_map_comm p q g l fun b hb => h b (List.mem_cons_of_mem _ hb)
    have h1 := h a List.mem_cons_self
    rw [List.map_cons, List.filter_cons, List.filter_cons, h1, ih]
    cases q a <;> rfl

theorem find_filter {α : Type} (p q : α → Bool) : ∀ l : List α, (∀ a ∈ l, q a = true → p a = true) → (l.filter p).find? q = l.find? q
  | [], _ => rfl
  | a :: l, h => by
    have ih := find_filter p q l fun b hb => h b (List.mem_cons_of_mem _ hb)
    rw [List.filter_cons, List.find?_cons]
    cases hq : q a with
    | true => rw [h a List.mem_cons_self hq]; simp [hq]
    | false =>
      cases hp : p a with
      | true => simp only [if_true, List.find?_cons, hq]; exact ih
      | false => simp only [Bool.false_eq_true, if_false]; exact ih

theorem claimAll_filter {self : Claim.Ctrl} {sel : SMap → Bool} {live : Option Claim.Ctrl} {ans : Claim.Obj → Option Claim.ApiErr} :
    ∀ (l : List Claim.Obj) (memo : Option Bool), (∀ o ∈ l, Claim.controllerOf o ≠ none) →
      Claim.claimAll self sel live ans memo (l.filter fun o => Claim.controllerOf o == some self.uid) = Claim.claimAll self sel live ans memo l
  | [], _, _ => rfl
  | o :: l, memo, h => by
    have ih := fun m => claimAll_filter (self := self) (sel := sel) (live := live) (ans := ans) l m fun b hb => h b (List.mem_cons_of_mem _ hb)
    rw [List.filter_cons]
    by_cases hc : Claim.controllerOf o = some self.uid
    · rw [if_pos (by simpa using hc), Claim.claimAll, Claim.claimAll, ih]
    · rw [if_neg (by simpa using hc)]
      have h1 : Claim.claimObject self sel live ans memo o = ⟨false, false, [], memo⟩ := by
        unfold Claim.claimObject
        cases hc' : Claim.controllerOf o with
        | none => exact absurd hc' (h o List.mem_cons_self)
        | some v =>
          have hne : v ≠ self.uid := fun h => hc (by rw [hc', h])
          exact if_pos hne
      rw [Claim.claimAll, h1, ih]
      simp

theorem owner_of_within {e : Env} {D : DepObj} {i : Item} (h : owner i ≠ none) (hw : Within e D i) : owner i = some D.uid := by
  rcases hw with hw | hw
  · exact hw
  · exact absurd hw.1 h

theorem claim_local {e : Env} {D : DepObj} {items : List Item} (ho : ∀ i ∈ items, owner i ≠ none) : claim e D (setsOf D.uid items) = claim e D items := by
  unfold claim setsOf
  rw [← claimAll_filter (items.map Item.obj) none (by
    intro o h; obtain ⟨i, hi, rfl⟩ := List.mem_map.1 h; exact ho i hi)]
  rw [filter_map_comm _ (fun i => owner i == some D.uid) Item.obj items fun _ _ => rfl]

theorem patched_owner {e : Env} {D : DepObj} {items : List Item} (ho : ∀ i ∈ items, owner i ≠ none) {i : Item} (hi : i ∈ items) :
    owner (patched e D (claim e D items).2.2 i) = owner i := by
  rcases patched_cases e D items i with h | ⟨h, h'⟩
  · rw [h]
  · rw [h', owner_of_within (ho i hi) h]
    rfl

theorem patched_foreign {e : Env} {D : DepObj} {items : List Item} (ho : ∀ i ∈ items, owner i ≠ none) {i : Item} (hi : i ∈ items) (h : owner i ≠ some D.uid) :
    patched e D (claim e D items).2.2 i = i := by
  rcases patched_cases e D items i with h' | ⟨h', _⟩
  · exact h'
  · exact absurd (owner_of_within (ho i hi) h') h

theorem mine_local {e : Env} {D : DepObj} {items : List Item} (ho : ∀ i ∈ items, owner i ≠ none) : mine e D (setsOf D.uid items) = mine e D items := by
  unfold mine
  rw [claim_local ho]
  unfold setsOf
  rw [List.filter_filter]
  refine List.filter_congr fun i hi => ?_
  cases hc : (claim e D items).1.contains i.obj with
  | false => simp
  | true =>
    rw [List.contains_iff_mem] at hc
    simpa using owner_of_within (ho i hi) (claim_within (.inl hc))

/-- the stored sets after the claim -/
def stored (e : Env) (D : DepObj) (items : List Item) : List Item := items.map (patched e D (claim e D items).2.2)

theorem stored_local {e : Env} {D : DepObj} {items : List Item} (ho : ∀ i ∈ items, owner i ≠ none) :
    setsOf D.uid (stored e D items) = stored e D (setsOf D.uid items) := by
  unfold stored
  rw [claim_local ho]
  exact filter_map_comm _ _ _ _ fun i hi => by rw [patched_owner ho hi]

theorem stored_foreign {e : Env} {D : DepObj} {items : List Item} (ho : ∀ i ∈ items, owner i ≠ none) {v : String} (hv : v ≠ D.uid) :
    setsOf v (stored e D items) = setsOf v items := by
  unfold stored setsOf
  rw [filter_map_comm _ (fun i => owner i == some v) _ _ fun i hi => by rw [patched_owner ho hi]]
  conv => rhs; rw [← List.map_id (List.filter _ items)]
  refine List.map_congr_left fun i hi => ?_
  rw [List.mem_filter] at hi
  have h2 : owner i = some v := by simpa using hi.2
  exact patched_foreign ho hi.1 (by rw [h2]; intro h; exact hv (Option.some.inj h))

theorem created_local {e : Env} {D : DepObj} {l : List Item} (hr : ∀ i ∈ l, i.name = e.base.fresh → owner i = some D.uid) :
    created e D (setsOf D.uid l) = created e D l := by
  unfold created setsOf
  rw [find_filter]
  intro i hi h
  simpa using hr i hi (by simpa using h)

theorem rest_local {e : Env} {D : DepObj} {items : List Item} (ho : ∀ i ∈ items, owner i ≠ none) (hr : ∀ i ∈ items, i.name = e.base.fresh → owner i = some D.uid) :
    rest e D (setsOf D.uid items) = rest e D items := by
  have hst : ∀ i ∈ stored e D items, i.name = e.base.fresh → owner i = some D.uid := by
    intro j hj hn
    obtain ⟨i, hi, rfl⟩ := List.mem_map.1 hj
    rw [patched_name] at hn
    rw [patched_owner ho hi, hr i hi hn]
  have h1 : created e D (stored e D (setsOf D.uid items)) = created e D (stored e D items) := by
    rw [← stored_local ho, created_local hst]
  unfold rest
  rw [mine_local ho]
  have h2 : created e D ((setsOf D.uid items).map (patched e D (claim e D (setsOf D.uid items)).2.2)) = created e D (items.map (patched e D (claim e D items).2.2)) := h1
  rw [h2]

/-- a set on which the rest of the run worked belongs to the deployment -/
theorem left_own {e : Env} {D : DepObj} {items : List Item} (hn : Names items) (ho : ∀ i ∈ items, owner i ≠ none) {f : FSet} (hf : f ∈ left e D items)
    {i : Item} (hi : i ∈ items) (he : f.set.name = i.name) : owner i = some D.uid := by
  rcases left_names hn hf with ⟨j, hj, hw, hnj⟩ | ⟨h1, h2⟩
  · obtain rfl := names_eq hn hj hi (hnj.trans he)
    exact owner_of_within (ho _ hj) hw
  · exact absurd (he.symm.trans h1) (h2 i hi)

theorem merge_setsOf {e : Env} {D : DepObj} {items : List Item} (hn : Names items) (ho : ∀ i ∈ items, owner i ≠ none) (v : String) :
    setsOf v (merge e D (stored e D items) (left e D items)) =
      if v = D.uid then merge e D (setsOf D.uid (stored e D items)) (left e D items) else setsOf v (stored e D items) := by
  have own : ∀ f ∈ left e D items, ∀ i ∈ stored e D items, i.name = f.set.name → owner i = some D.uid := by
    intro f hf j hj he
    obtain ⟨i, hi, rfl⟩ := List.mem_map.1 hj
    rw [patched_name] at he
    rw [patched_owner ho hi]
    exact left_own hn ho hf hi he.symm
  unfold merge
  by_cases hv : v = D.uid
  · subst hv
    rw [if_pos rfl]
    unfold setsOf
    rw [List.filter_append]
    congr 1
    · exact filter_map_comm _ _ _ _ fun i _ => by rw [settled_owner]
    · have h1 : List.filter (fun i => owner i == some D.uid) (List.map (fun f => ({ uid := e.uid, labels := f.tmpl.labels, owners := [⟨D.uid, true⟩], f := f } : Item))
          (List.filter (fun f => !(stored e D items).any fun i => i.name == f.set.name) (left e D items))) =
          List.map (fun f => ({ uid := e.uid, labels := f.tmpl.labels, owners := [⟨D.uid, true⟩], f := f } : Item))
          (List.filter (fun f => !(stored e D items).any fun i => i.name == f.set.name) (left e D items)) := by
        rw [List.filter_eq_self]
        intro j hj
        obtain ⟨f, _, rfl⟩ := List.mem_map.1 hj
        simp [owner, Item.obj, Claim.controllerOf]
      rw [h1]
      congr 1
      refine List.filter_congr fun f hf => ?_
      congr 1
      rw [List.any_filter]
      rw [Bool.eq_iff_iff, List.any_eq_true, List.any_eq_true]
      constructor
      · rintro ⟨i, hi, h⟩
        refine ⟨i, hi, ?_⟩
        simp only [Bool.and_eq_true, beq_iff_eq]
        exact ⟨own f hf i hi (by simpa using h), by simpa using h⟩
      · rintro ⟨i, hi, h⟩
        simp only [Bool.and_eq_true] at h
        exact ⟨i, hi, h.2⟩
  · rw [if_neg hv]
    unfold setsOf
    rw [List.filter_append]
    have h2 : List.filter (fun i => owner i == some v) (List.map (fun f => ({ uid := e.uid, labels := f.tmpl.labels, owners := [⟨D.uid, true⟩], f := f } : Item))
          (List.filter (fun f => !(stored e D items).any fun i => i.name == f.set.name) (left e D items))) = [] := by
      rw [List.filter_eq_nil_iff]
      intro j hj
      obtain ⟨f, _, rfl⟩ := List.mem_map.1 hj
      have : some D.uid ≠ some v := fun h => hv (Option.some.inj h).symm
      simpa [owner, Item.obj, Claim.controllerOf] using this
    rw [h2, List.append_nil, filter_map_comm _ (fun i => owner i == some v) _ _ fun i _ => by rw [settled_owner]]
    conv => rhs; rw [← List.map_id (List.filter _ (stored e D items))]
    refine List.map_congr_left fun i hi => ?_
    rw [List.mem_filter] at hi
    have h3 : owner i = some v := by simpa using hi.2
    refine settled_none fun f hf h => ?_
    have := own f hf i hi.1 h.symm
    rw [h3] at this
    exact hv (Option.some.inj this)

/-- a run gives the deployment what it would give it if there were no sets but its own -/
theorem run_own {e : Env} {D : DepObj} {items : List Item} (hn : Names items) (ho : ∀ i ∈ items, owner i ≠ none)
    (hr : ∀ i ∈ items, i.name = e.base.fresh → owner i = some D.uid) :
    (run e D items).dep = (run e D (setsOf D.uid items)).dep ∧ setsOf D.uid (run e D items).items = (run e D (setsOf D.uid items)).items := by
  have h1 := merge_setsOf (e := e) (D := D) hn ho D.uid
  rw [if_pos rfl] at h1
  unfold run
  by_cases hv : (!e.base.valid) = true
  · rw [if_pos hv, if_pos hv]; exact ⟨rfl, rfl⟩
  rw [if_neg hv, if_neg hv]
  by_cases hs : (D.d.selectsAll || !e.listOk) = true
  · rw [if_pos hs, if_pos hs]; exact ⟨rfl, rfl⟩
  rw [if_neg hs, if_neg hs]
  dsimp only
  rw [claim_local ho, mine_local ho, rest_local ho hr]
  have h2 : setsOf D.uid (items.map (patched e D (claim e D items).2.2)) = (setsOf D.uid items).map (patched e D (claim e D items).2.2) := by
    have := stored_local (e := e) (D := D) ho
    unfold stored at this
    rw [claim_local ho] at this
    exact this
  by_cases hc : (claim e D items).2.1 = true
  · rw [if_pos hc, if_pos hc]
    exact ⟨rfl, h2⟩
  · rw [if_neg hc, if_neg hc]
    refine ⟨rfl, ?_⟩
    rw [← h2]
    exact h1

/-- and leaves the sets of others as they are -/
theorem run_others {e : Env} {D : DepObj} {items : List Item} (hn : Names items) (ho : ∀ i ∈ items, owner i ≠ none) {v : String} (hv : v ≠ D.uid) :
    setsOf v (run e D items).items = setsOf v items := by
  have h1 := merge_setsOf (e := e) (D := D) hn ho v
  rw [if_neg hv, stored_foreign ho hv] at h1
  unfold run
  split
  · rfl
  split
  · rfl
  dsimp only
  split
  · exact stored_foreign ho hv
  · exact h1

theorem run_uid (e : Env) (D : DepObj) (items : List Item) : (run e D items).dep.uid = D.uid := by
  have hg : (guarded e D).uid = D.uid := by unfold guarded; split <;> rfl
  unfold run
  split
  · rfl
  split
  · exact hg
  dsimp only
  split
  · exact hg
  · rfl

theorem stored_names (e : Env) (D : DepObj) (items : List Item) : (stored e D items).map Item.name = items.map Item.name := by
  unfold stored
  rw [List.map_map]
  exact List.map_congr_left fun i _ => patched_name e D _ i

theorem kept_names : ∀ {l l' : List FSet}, List.Forall₂ Kept l l' → l'.map (·.set.name) = l.map (·.set.name)
  | _, _, .nil => rfl
  | _, _, .cons h t => by rw [List.map_cons, List.map_cons, kept_names t, h.1]

/-- names stay unique -/
theorem run_names {e : Env} {D : DepObj} {items : List Item} (hn : Names items) : Names (run e D items).items := by
  have hs : Names (stored e D items) := by unfold Names; rw [stored_names]; exact hn
  unfold run
  split
  · exact hn
  split
  · exact hn
  dsimp only
  split
  · exact hs
  · show Names (merge e D (stored e D items) (left e D items))
    unfold Names merge
    rw [List.map_append, List.map_map, List.map_map]
    have hm : List.map (Item.name ∘ settled (left e D items)) (stored e D items) =
        items.map Item.name := by
      rw [← stored_names e D items]
      exact List.map_congr_left fun i _ => settled_name _ i
    have ha : ∀ f : FSet, (stored e D items).any (fun i => i.name == f.set.name) = (items.map Item.name).contains f.set.name := by
      intro f
      rw [← stored_names e D items, Bool.eq_iff_iff, List.any_eq_true, List.contains_iff_mem, List.mem_map]
      simp
    have hf : List.map (Item.name ∘ fun f => ({ uid := e.uid, labels := f.tmpl.labels, owners := [⟨D.uid, true⟩], f := f } : Item))
        (List.filter (fun f => !(stored e D items).any fun i => i.name == f.set.name) (left e D items)) =
        ((left e D items).map (·.set.name)).filter fun n => !(items.map Item.name).contains n := by
      rw [filter_map_comm _ (fun f => !(stored e D items).any fun i => i.name == f.set.name) _ _ fun f _ => by rw [ha]]
      rfl
    rw [hm, hf]
    have hmine : ((mine e D items).map (·.f)).map (·.set.name) = (mine e D items).map Item.name := by rw [List.map_map]; rfl
    have hnone : ((mine e D items).map Item.name).filter (fun n => !(items.map Item.name).contains n) = [] := by
      rw [List.filter_eq_nil_iff]
      intro n hnm
      obtain ⟨i, hi, rfl⟩ := List.mem_map.1 hnm
      have : (items.map Item.name).contains i.name = true := by
        rw [List.contains_iff_mem]; exact List.mem_map.2 ⟨i, (mine_within hi).1, rfl⟩
      rw [this]; simp
    rw [List.nodup_append]
    refine ⟨hn, ?_, ?_⟩
    · rcases left_cases hn with h | ⟨x, _, h⟩
      · rw [kept_names h, hmine, hnone]; exact List.nodup_nil
      · rw [kept_names h, List.map_append, hmine, List.filter_append, hnone, List.nil_append]
        exact (List.nodup_singleton _).sublist List.filter_sublist
    · intro a h1 b h2 he
      rw [List.mem_filter] at h2
      have : (items.map Item.name).contains b = true := by rw [List.contains_iff_mem, ← he]; exact h1
      rw [this] at h2
      simp at h2

theorem run_reserved {own : String → String} {e : Env} {D : DepObj} {items : List Item} (hn : Names items) (ho : ∀ i ∈ items, owner i = some (own i.name))
    (hf : own e.base.fresh = D.uid) : ∀ j ∈ (run e D items).items, owner j = some (own j.name) := by
  intro j hj
  have single : owner { j with owners := [⟨D.uid, true⟩] } = some D.uid := rfl
  rcases C135_only_own_added e D items hn j hj with ⟨i, hi, h1, _, _, h4⟩ | ⟨_, h1, h2, _⟩
  · rcases h4 with rfl | ⟨hw, h4⟩
    · exact ho j hi
    · have hi' := ho i hi
      have hw' := owner_of_within (by rw [hi']; simp) hw
      rw [h1, ← hi']
      rcases h4 with h4 | h4
      · show Claim.controllerOf j.obj = Claim.controllerOf i.obj
        unfold Claim.controllerOf Item.obj
        rw [h4]
      · rw [hw']
        show Claim.controllerOf j.obj = _
        unfold Claim.controllerOf Item.obj
        rw [h4]; rfl
  · rw [h1, hf]
    show Claim.controllerOf j.obj = _
    unfold Claim.controllerOf Item.obj
    rw [h2]; rfl

theorem step_reserved {own : String → String} {s : Cluster} {op : Op} (hs : Reserved own s) (hf : Fair own op) : Reserved own (step s op) := by
  cases op with
  | run u e =>
    unfold step
    dsimp only
    cases hd : s.deps u with
    | none => exact hs
    | some D =>
      have hu := hs.uids u D hd
      refine ⟨run_names hs.names, run_reserved hs.names hs.owned (by rw [hu]; exact hf), ?_⟩
      intro v E hE
      dsimp only at hE
      split at hE
      · rename_i hv
        rw [← Option.some.inj hE, run_uid, hu, hv]
      · exact hs.uids v E hE
  | edit u D =>
    refine ⟨hs.names, hs.owned, ?_⟩
    intro v E hE
    dsimp only [step] at hE
    split at hE
    · rename_i hv; rw [hv]; exact hf E hE
    · exact hs.uids v E hE
  | write n g =>
    have hname : ∀ i : Item, (if i.name == n then { i with f := { g i.f with set := { (g i.f).set with name := n } } } else i).name = i.name := by
      intro i
      split
      · rename_i h; exact (beq_iff_eq.1 h).symm
      · rfl
    have hown : ∀ i : Item, owner (if i.name == n then { i with f := { g i.f with set := { (g i.f).set with name := n } } } else i) = owner i := by
      intro i
      split <;> rfl
    refine ⟨?_, ?_, hs.uids⟩
    · have : (step s (.write n g)).items.map Item.name = s.items.map Item.name := by
        unfold step
        rw [List.map_map]
        exact List.map_congr_left fun i _ => hname i
      unfold Names
      rw [this]; exact hs.names
    · intro j hj
      obtain ⟨i, hi, rfl⟩ := List.mem_map.1 hj
      rw [hown, hname]
      exact hs.owned i hi
  | remove n =>
    refine ⟨?_, ?_, hs.uids⟩
    · exact hs.names.sublist (List.filter_sublist.map _)
    · intro j hj
      exact hs.owned j (List.mem_filter.1 hj).1
  | add i =>
    unfold step
    dsimp only
    split
    · exact ⟨hs.names, hs.owned, hs.uids⟩
    · rename_i h
      refine ⟨?_, ?_, hs.uids⟩
      · show ((s.items ++ [i]).map Item.name).Nodup
        rw [List.map_append, List.nodup_append]
        refine ⟨hs.names, List.nodup_singleton _, ?_⟩
        intro a ha b hb he
        obtain ⟨j, hj, rfl⟩ := List.mem_map.1 ha
        have hb : b = i.name := by simpa using hb
        exact h (List.any_eq_true.2 ⟨j, hj, by simpa using he.trans hb⟩)
      · intro j hj
        rcases List.mem_append.1 hj with hj | hj
        · exact hs.owned j hj
        · obtain rfl := List.mem_singleton.1 hj; exact hf

theorem setsOf_write (u n : String) (g : FSet → FSet) (l : List Item) :
    setsOf u (l.map fun i => if i.name == n then { i with f := { g i.f with set := { (g i.f).set with name := n } } } else i) =
      (setsOf u l).map fun i => if i.name == n then { i with f := { g i.f with set := { (g i.f).set with name := n } } } else i :=
  filter_map_comm _ _ _ _ fun i _ => by split <;> rfl

theorem view_ext {u : String} {s t : Cluster} (h1 : s.deps u = t.deps u) (h2 : setsOf u s.items = setsOf u t.items) : view u s = view u t := by
  unfold view; rw [h1, h2]

/-- a step about others changes nothing for the deployment -/
theorem step_others {own : String → String} {u : String} {s : Cluster} {op : Op} (hs : Reserved own s) (hf : Fair own op) (hc : concerns own u op = false) :
    view u (step s op) = view u s := by
  have hne : ∀ i ∈ s.items, owner i ≠ none := fun i hi => by rw [hs.owned i hi]; simp
  have hmem : ∀ {i}, i ∈ setsOf u s.items → own i.name = u := by
    intro i hi
    rw [setsOf, List.mem_filter] at hi
    have h1 := hs.owned i hi.1
    have h2 : owner i = some u := by simpa using hi.2
    exact Option.some.inj (h1.symm.trans h2)
  cases op with
  | run v e =>
    have hv : v ≠ u := by simpa [concerns] using hc
    unfold step
    dsimp only
    cases hd : s.deps v with
    | none => rfl
    | some D =>
      have hu := hs.uids v D hd
      exact view_ext (by dsimp only; rw [if_neg (Ne.symm hv)]) (run_others hs.names hne (by rw [hu]; exact Ne.symm hv))
  | edit v D =>
    have hv : v ≠ u := by simpa [concerns] using hc
    exact view_ext (by dsimp only [step]; rw [if_neg (Ne.symm hv)]) rfl
  | write n g =>
    have hv : own n ≠ u := by simpa [concerns] using hc
    refine view_ext rfl ?_
    unfold step
    rw [setsOf_write]
    conv => rhs; rw [← List.map_id (setsOf u s.items)]
    refine List.map_congr_left fun i hi => ?_
    have : i.name ≠ n := fun h => hv (by rw [← h]; exact hmem hi)
    rw [if_neg (by simpa using this)]; rfl
  | remove n =>
    have hv : own n ≠ u := by simpa [concerns] using hc
    refine view_ext rfl ?_
    unfold step setsOf
    rw [List.filter_filter]
    refine List.filter_congr fun i hi => ?_
    cases ho : (owner i == some u) with
    | false => simp
    | true =>
      have : i.name ≠ n := fun h => hv (by rw [← h]; exact hmem (List.mem_filter.2 ⟨hi, ho⟩))
      simpa using this
  | add i =>
    have hv : own i.name ≠ u := by simpa [concerns] using hc
    refine view_ext rfl ?_
    unfold step
    dsimp only
    split
    · rfl
    · unfold setsOf
      rw [List.filter_append]
      have : owner i ≠ some u := by rw [hf]; exact fun h => hv (Option.some.inj h)
      simp [this]

/-- what a step about the deployment does to it depends on nothing else -/
theorem step_own {own : String → String} {u : String} {s t : Cluster} {op : Op} (hs : Reserved own s) (ht : Reserved own t) (hf : Fair own op)
    (hc : concerns own u op = true) (h : view u s = view u t) : view u (step s op) = view u (step t op) := by
  have h1 : s.deps u = t.deps u := congrArg Prod.fst h
  have h2 : setsOf u s.items = setsOf u t.items := congrArg Prod.snd h
  cases op with
  | run v e =>
    obtain rfl : v = u := by simpa [concerns] using hc
    unfold step
    dsimp only
    rw [← h1]
    cases hd : s.deps v with
    | none => exact view_ext (by rw [h1]) h2
    | some D =>
      have hu := hs.uids v D hd
      have hne : ∀ {r : Cluster}, Reserved own r → ∀ i ∈ r.items, owner i ≠ none := fun hr i hi => by rw [hr.owned i hi]; simp
      have hfr : ∀ {r : Cluster}, Reserved own r → ∀ i ∈ r.items, i.name = e.base.fresh → owner i = some D.uid := fun hr i hi hn => by
        rw [hr.owned i hi, hn, hu]; exact congrArg some hf
      obtain ⟨a1, a2⟩ := run_own (e := e) (D := D) hs.names (hne hs) (hfr hs)
      obtain ⟨b1, b2⟩ := run_own (e := e) (D := D) ht.names (hne ht) (hfr ht)
      rw [hu] at a1 a2 b1 b2
      refine view_ext ?_ ?_
      · dsimp only
        rw [if_pos rfl, if_pos rfl, a1, b1, h2]
      · dsimp only
        rw [a2, b2, h2]
  | edit v D =>
    obtain rfl : v = u := by simpa [concerns] using hc
    exact view_ext (by dsimp only [step]; rw [if_pos rfl, if_pos rfl]) h2
  | write n g =>
    refine view_ext h1 ?_
    unfold step
    rw [setsOf_write, setsOf_write, h2]
  | remove n =>
    refine view_ext h1 ?_
    unfold step
    have : ∀ l : List Item, setsOf u (l.filter fun i => !(i.name == n)) = (setsOf u l).filter fun i => !(i.name == n) := by
      intro l
      unfold setsOf
      rw [List.filter_filter, List.filter_filter]
      exact List.filter_congr fun i _ => Bool.and_comm _ _
    rw [this, this, h2]
  | add i =>
    have hi : own i.name = u := by simpa [concerns] using hc
    refine view_ext h1 ?_
    have hany : ∀ {r : Cluster}, Reserved own r → r.items.any (fun j => j.name == i.name) = (setsOf u r.items).any (fun j => j.name == i.name) := by
      intro r hr
      rw [Bool.eq_iff_iff, List.any_eq_true, List.any_eq_true]
      constructor
      · rintro ⟨j, hj, hn⟩
        refine ⟨j, List.mem_filter.2 ⟨hj, ?_⟩, hn⟩
        rw [hr.owned j hj, beq_iff_eq.1 hn, hi]; simp
      · rintro ⟨j, hj, hn⟩
        exact ⟨j, (List.mem_filter.1 hj).1, hn⟩
    unfold step
    dsimp only
    rw [hany hs, hany ht, h2]
    split
    · exact h2
    · unfold setsOf at h2 ⊢
      rw [List.filter_append, List.filter_append, h2]

theorem exec_views {own : String → String} (u : String) : ∀ (ops : List Op) (s t : Cluster), Reserved own s → Reserved own t → (∀ op ∈ ops, Fair own op) →
    view u s = view u t → view u (exec s ops) = view u (exec t (ops.filter (concerns own u)))
  | [], _, _, _, _, _, h => h
  | op :: ops, s, t, hs, ht, hf, h => by
    have hf1 := hf op List.mem_cons_self
    have ih := exec_views (own := own) u ops (step s op)
    rw [List.filter_cons]
    cases hc : concerns own u op with
    | true => exact ih (step t op) (step_reserved hs hf1) (step_reserved ht hf1) (fun o ho => hf o (List.mem_cons_of_mem _ ho)) (step_own hs ht hf1 hc h)
    | false => exact ih t (step_reserved hs hf1) ht (fun o ho => hf o (List.mem_cons_of_mem _ ho)) ((step_others hs hf1 hc).trans h)

/-- Whatever is done to other deployments and their sets, and whatever the controller does for them, the deployment and its sets end as if nothing of it had happened.
In full, for sets without controllers and for sets with names that another deployment intends to use, this is false: `C135_orphan_false`, `C135_name_taken_false`. -/
theorem C135_no_interference_partial (own : String → String) (u : String) (s : Cluster) (ops : List Op) (hs : Reserved own s) (hf : ∀ op ∈ ops, Fair own op) :
    view u (exec s ops) = view u (exec s (ops.filter (concerns own u))) :=
  exec_views u ops s s hs hs hf rfl

/-- The same holds for machines: two populations that agree in the machines of the sets within the deployment lead to the same run. -/
theorem C135_machines_of_others (e : Env) (D : DepObj) (items : List Item) (ms : List Claim.Obj)
    (h : ∀ i ∈ items, Within e D i → e.machines.filter (fun m => Claim.controllerOf m == some i.uid) = ms.filter (fun m => Claim.controllerOf m == some i.uid)) :
    run { e with machines := ms } D items = run e D items := by
  have hc : claim { e with machines := ms } D items = claim e D items := rfl
  have hm : mine { e with machines := ms } D items = mine e D items := rfl
  have hp : ∀ effs, patched { e with machines := ms } D effs = patched e D effs := fun _ => rfl
  have hr : rest { e with machines := ms } D items = rest e D items := by
    have hcount : count { e with machines := ms } D (mine e D items) = count e D (mine e D items) := by
      funext n
      unfold count
      cases hf : (mine e D items).find? (fun i => i.name == n) with
      | none => rfl
      | some i =>
        obtain ⟨h1, h2⟩ := mine_within (List.mem_of_find?_eq_some hf)
        dsimp only
        rw [← List.filter_filter, ← List.filter_filter, ← h i h1 h2]
    unfold rest
    rw [hm, hcount]
    rfl
  unfold run
  rw [hr]
  rfl

/-- the names are reserved indeed: a deployment's name is the part of the name of its sets before the last hyphen, as hashes have none -/
theorem C135_names_apart (a b h k : List Char) (hh : '-' ∉ h) (hk : '-' ∉ k) (he : a ++ '-' :: h = b ++ '-' :: k) : a = b := by
  induction a generalizing b with
  | nil =>
    cases b with
    | nil => rfl
    | cons c b =>
      simp only [List.nil_append, List.cons_append, List.cons.injEq] at he
      exact absurd (by rw [he.2]; simp) hh
  | cons c a ih =>
    cases b with
    | nil =>
      simp only [List.nil_append, List.cons_append, List.cons.injEq] at he
      exact absurd (by rw [← he.2]; simp) hk
    | cons c' b =>
      simp only [List.cons_append, List.cons.injEq] at he
      rw [he.1, ih b he.2]

/-! ### Cases -/

/-- two deployments, each selecting by its own label -/
def depA : DepObj := { uid := "a", sel := fun l => l.lookup "pool" == some "a", d := { spec := { replicas := 2, maxSurge := some (.int 1), maxUnavailable := some (.int 0) }, template := { labels := [("pool", "a")], body := "a2" } } }
/-- the other one -/
def depB : DepObj := { uid := "b", sel := fun l => l.lookup "pool" == some "b", d := { spec := { replicas := 3, maxSurge := some (.int 1), maxUnavailable := some (.int 0) }, template := { labels := [("pool", "b")], body := "b1" } } }
/-- the set of the first deployment, with an old template -/
def setA : Item := { uid := "1", labels := [("pool", "a")], owners := [⟨"a", true⟩], f := { set := { name := "a-1", spec := 2, avail := 2 }, status := 2, tmpl := { labels := [("pool", "a")], body := "a1" } } }
/-- the set of the second deployment -/
def setB : Item := { uid := "2", labels := [("pool", "b")], owners := [⟨"b", true⟩], f := { set := { name := "b-1", spec := 3, avail := 3 }, status := 3, tmpl := { labels := [("pool", "b")], body := "b1" } } }
/-- a run of the controller that would call a new set by this name -/
def envFor (fresh : String) : Env := { base := { fresh := fresh, hash := "h" }, uid := fresh, live := some ⟨"b", false⟩ }
/-- sizes of the sets of a deployment -/
def shown (u : String) (s : Cluster) : List (String × Int) := (view u s).2.map fun i => (i.name, i.f.set.spec)
/-- the cluster with both -/
def both : Cluster := ⟨fun u => if u = "a" then some depA else if u = "b" then some depB else none, [setA, setB]⟩
/-- names are reserved by their first letter -/
def ownOf (n : String) : String := if n.startsWith "a" then "a" else "b"

-- the run for the first deployment creates a set for its new template, and leaves the set of the other alone
example : ((run (envFor "a-2") depA [setA, setB]).items.map fun i => (i.name, owner i)) = [("a-1", some "a"), ("b-1", some "b"), ("a-2", some "a")] := by decide +kernel
example : setB ∈ (run (envFor "a-2") depA [setA, setB]).items :=
  C135_foreign_untouched (envFor "a-2") depA [setA, setB] (by unfold Names; decide +kernel) setB (by decide +kernel) "b" (by decide +kernel) (by decide +kernel)
example : shown "a" (exec both [.run "a" (envFor "a-2")]) ≠ shown "a" both := by decide +kernel

/-- both are reconciled, the first is edited, and a set of the second is written -/
def someOps : List Op := [.run "a" (envFor "a-2"), .run "b" (envFor "b-2"), .edit "a" none, .write "b-1" (fun f => { f with deleting := true }), .remove "a-1"]

theorem both_reserved : Reserved ownOf both := by
  refine ⟨by unfold Names; decide +kernel, by decide +kernel, ?_⟩
  intro u D h
  unfold both at h
  dsimp only at h
  split at h
  · rename_i hu; rw [← Option.some.inj h, hu]; rfl
  · split at h
    · rename_i hu; rw [← Option.some.inj h, hu]; rfl
    · cases h

theorem someOps_fair : ∀ op ∈ someOps, Fair ownOf op := by
  intro op h
  simp only [someOps, List.mem_cons, List.not_mem_nil, or_false] at h
  rcases h with rfl | rfl | rfl | rfl | rfl
  · show ownOf "a-2" = "a"; decide +kernel
  · show ownOf "b-2" = "b"; decide +kernel
  · intro D h; cases h
  · trivial
  · trivial

example : view "b" (exec both someOps) = view "b" (exec both (someOps.filter (concerns ownOf "b"))) :=
  C135_no_interference_partial ownOf "b" both someOps both_reserved someOps_fair
example : (someOps.filter (concerns ownOf "b")).length = 2 := by decide +kernel

-- with Recreate, machines of the old set delay the new one; machines of another deployment's set do not
example :
    let d : DepObj := { depA with d := { depA.d with spec := { depA.d.spec with strategy := .recreate } } }
    let at0 : Item := { setA with f := { setA.f with set := { setA.f.set with spec := 0, avail := 0 }, status := 0 } }
    ((run { envFor "a-2" with machines := [{ name := "m", uid := "m", owners := [⟨"1", true⟩], labels := [("pool", "a")] }] } d [at0, setB]).items.length,
      (run { envFor "a-2" with machines := [{ name := "m", uid := "m", owners := [⟨"2", true⟩], labels := [("pool", "a")] }] } d [at0, setB]).items.length) = (2, 3) := by decide +kernel

/-! ### Why the restrictions are needed -/

/-- a set without a controller, with labels both deployments select -/
def stray : Item := { uid := "3", labels := [("pool", "b")], owners := [], f := { set := { name := "b-0", spec := 1, avail := 1 }, status := 1, tmpl := { labels := [("pool", "b")], body := "b0" } } }
/-- a second deployment whose selector matches the same labels -/
def depC : DepObj := { depB with uid := "c" }
/-- a run that finds the deployment as it is in the API server -/
def envLive (u fresh : String) : Env := { envFor fresh with live := some ⟨u, false⟩ }
/-- both deployments and the stray set -/
def contested : Cluster := ⟨fun u => if u = "b" then some depB else if u = "c" then some depC else none, [setB, stray]⟩

/-- A set without a controller goes to the deployment whose turn comes first: what is done for one deployment decides what the other gets, although no step but its own names it
or its sets. -/
theorem C135_orphan_false :
    let own : String → String := fun n => if n = "c-1" then "c" else "b"
    let ops : List Op := [.run "c" (envLive "c" "c-1"), .run "b" (envLive "b" "b-2")]
    Names contested.items ∧ (∀ op ∈ ops, Fair own op) ∧ (shown "b" (exec contested ops)).map (·.1) = ["b-1"] ∧
    (shown "b" (exec contested (ops.filter (concerns own "b")))).map (·.1) = ["b-1", "b-0"] := by
  refine ⟨by unfold Names; decide +kernel, ?_, by decide +kernel, by decide +kernel⟩
  intro op h
  simp only [List.mem_cons, List.not_mem_nil, or_false] at h
  rcases h with rfl | rfl
  · show (if "c-1" = "c-1" then "c" else "b") = "c"; decide +kernel
  · show (if "b-2" = "c-1" then "c" else "b") = "b"; decide +kernel

/-- a set of some other owner, with the name the first deployment intends to use for its new template -/
def squatter : Item := { uid := "4", labels := [], owners := [⟨"x", true⟩], f := { set := { name := "a-2", spec := 0 } } }

/-- A set of another owner with the name a deployment intends to use keeps it from creating its set: the run does not get further. -/
theorem C135_name_taken_false :
    Reserved ownOf both ∧ shown "a" (exec both [.add squatter, .run "a" (envFor "a-2")]) = [("a-1", 2)] ∧
    (shown "a" (exec both [.run "a" (envFor "a-2")])).map (·.1) = ["a-1", "a-2"] :=
  ⟨both_reserved, by decide +kernel, by decide +kernel⟩

end MCM.DepRun
