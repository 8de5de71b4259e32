import Verif.Lemmas.DispatchSteps
/-!
Which machine sets a run of the deployment controller marks for deletion: only sets of size zero, and never the current one.
-/
namespace MCM.Dispatch
open MCM MCM.Template MCM.Rolling

/-- a set before and after: it keeps its mark; it is marked only if its size is zero and its name is not `c` -/
structure Mk (c : Option String) (a b : FSet) : Prop where
  kept : Kept a b
  stays : a.deleting = true → b.deleting = true
  fresh : b.deleting = true → a.deleting = true ∨ (a.set.spec = 0 ∧ c ≠ some a.set.name)

theorem Mk.refl (c : Option String) (a : FSet) : Mk c a a := ⟨⟨rfl, rfl, rfl⟩, id, .inl⟩

theorem Same.mk {a b : FSet} (h : Same a b) (c : Option String) : Mk c a b :=
  ⟨h.1, fun h' => by rw [h.2.2.2]; exact h', fun h' => .inl (by rw [← h.2.2.2]; exact h')⟩

/-- the same size and the same mark, up to the size -/
structure Sz (a b : FSet) : Prop where
  kept : Kept a b
  mark : b.deleting = a.deleting

theorem Sz.mk' {a b : FSet} (h : Sz a b) (c : Option String) : Mk c a b :=
  ⟨h.kept, fun h' => by rw [h.mark]; exact h', fun h' => .inl (by rw [← h.mark]; exact h')⟩

theorem Sz.refl (a : FSet) : Sz a a := ⟨⟨rfl, rfl, rfl⟩, rfl⟩

theorem resize_sz (l : List FSet) (r : List Scale.MSet) : List.Forall₂ Sz l (resize l r) := by
  refine forall2_map _ _ fun a _ => ?_
  split
  · rename_i s hs
    exact ⟨⟨by simpa using List.find?_some hs, rfl, rfl⟩, rfl⟩
  · exact Sz.refl a

theorem resizeMS_sz (d : Dep) (l : List FSet) (r : List Rolling.MS) : List.Forall₂ Sz l (resizeMS d l r) := by
  refine forall2_map _ _ fun a _ => ?_
  split
  · refine ⟨withSize_kept _ _ _, ?_⟩
    unfold withSize
    split <;> rfl
  · exact Sz.refl a

theorem loop_mem {fails : Rollback.OldSet → Bool} : ∀ (n : Nat) {l : List Rollback.OldSet} {o : Rollback.OldSet}, o ∈ (Rollback.cleanupLoop fails n l).deleted → o ∈ l ∧ o.spec = 0
  | 0, _, _, h => by rw [Rollback.cleanupLoop] at h; cases h
  | _ + 1, [], _, h => by rw [Rollback.cleanupLoop] at h; cases h
  | n + 1, s :: l, o, h => by
    rw [Rollback.cleanupLoop] at h
    split at h
    · obtain ⟨h1, h2⟩ := loop_mem n h
      exact ⟨List.mem_cons_of_mem _ h1, h2⟩
    · rename_i hno
      have hz : s.spec = 0 := by
        apply Classical.byContradiction
        intro hne
        exact hno (.inr (.inl hne))
      split at h
      · rw [List.mem_singleton.1 h]; exact ⟨List.mem_cons_self .., hz⟩
      · rcases List.mem_cons.1 h with rfl | h
        · exact ⟨List.mem_cons_self .., hz⟩
        · obtain ⟨h1, h2⟩ := loop_mem n h
          exact ⟨List.mem_cons_of_mem _ h1, h2⟩

theorem cleanup_mem {sort : List Rollback.OldSet → List Rollback.OldSet} (hs : ∀ l, (sort l).Perm l) {fails : Rollback.OldSet → Bool} {limit : Option Int} {old : List Rollback.OldSet}
    {o : Rollback.OldSet} (h : o ∈ (Rollback.cleanup sort fails limit old).deleted) : o ∈ old ∧ o.spec = 0 := by
  unfold Rollback.cleanup at h
  split at h
  · cases h
  · dsimp only at h
    split at h
    · cases h
    · obtain ⟨h1, h2⟩ := loop_mem _ h
      exact ⟨(List.mem_filter.1 ((hs _).mem_iff.1 h1)).1, h2⟩

/-- the clean-up of the sets `m`, whose sizes may have changed to those of `s` since they were read -/
theorem cleanup_mk {d : FDep} {e : Env} (hc : ∀ l, (e.cleanupSort l).Perm l) {c : Option String} {m s : List FSet} (hu : Unique m) (h : List.Forall₂ Sz m s) {old : List FSet}
    (hold : ∀ f ∈ old, f ∈ m ∧ c ≠ some f.set.name) : List.Forall₂ (Mk c) m (rolloutCleanup d e old s) := by
  unfold rolloutCleanup
  split
  · unfold cleanup
    dsimp only
    generalize hdel : ((Rollback.cleanup e.cleanupSort e.cleanupFails d.limit (old.map oldOf)).deleted.filter fun o => !(e.cleanupFails o && e.cleanupLost o)) = del
    have key : ∀ a ∈ m, (∃ o ∈ del, o.name = a.set.name) → a.set.spec = 0 ∧ c ≠ some a.set.name := by
      intro a ha ⟨o, ho, hn⟩
      rw [← hdel] at ho
      obtain ⟨h1, h2⟩ := cleanup_mem hc (List.mem_filter.1 ho).1
      obtain ⟨f, hf, rfl⟩ := List.mem_map.1 h1
      obtain ⟨h3, h4⟩ := hold f hf
      have : f = a := unique_eq m hu f a h3 ha hn
      subst this
      exact ⟨h2, h4⟩
    clear hdel hold hu
    induction h with
    | nil => exact .nil
    | @cons a b l l' hr _ ih =>
      rw [List.map_cons]
      refine .cons ?_ (ih fun a ha => key a (List.mem_cons_of_mem _ ha))
      split
      · rename_i hany
        obtain ⟨o, ho, hn⟩ := List.any_eq_true.1 hany
        refine ⟨hr.kept, fun _ => rfl, fun _ => .inr (key a (List.mem_cons_self ..) ⟨o, ho, ?_⟩)⟩
        rw [← hr.kept.1]; simpa using hn
      · exact hr.mk' c
  · exact h.imp fun _ _ h => h.mk' c

/-- what a run does to the list of sets: it marks some of size zero, or adds one for the current template and then marks some -/
def Evolves (d : FDep) (l l' : List FSet) : Prop :=
  List.Forall₂ (Mk ((cur d l).map (·.set.name))) l l' ∨
  (cur d l = none ∧ ∃ x, x.deleting = false ∧ equalIgnoreHash x.tmpl d.template = true ∧ List.Forall₂ (Mk (some x.set.name)) (l ++ [x]) l')

theorem Evolves.refl (d : FDep) (l : List FSet) : Evolves d l l := .inl (forall2_refl (fun a => Mk.refl _ a) l)

/-- the sets as read, in the two cases -/
theorem getNew_evolves {d : FDep} {e : Env} (hx : ∀ f, e.created ≠ .existing f) (create : Bool) {l : List FSet} (hu : Unique l) :
    (List.Forall₂ Same l (getNew d e create l).sets ∧ ((getNew d e create l).err = false → (getNew d e create l).new = (cur d l).map (·.set.name))) ∨
    (cur d l = none ∧ ∃ size, (getNew d e create l).sets = l ++ [newSet d e l size] ∧ ((getNew d e create l).err = false → (getNew d e create l).new = some e.fresh)) := by
  cases hn : cur d l with
  | some n =>
    rw [getNew_cur hn]
    exact .inl ⟨(syncCurrent_same d e l hu n (cur_mem hn)).1, (syncCurrent_same d e l hu n (cur_mem hn)).2⟩
  | none =>
    unfold getNew
    unfold cur at hn
    rw [hn]
    dsimp only
    split
    · unfold createCurrent
      split
      · exact .inl ⟨forall2_refl same_refl l, by simp⟩
      · split
        · exact .inl ⟨forall2_refl same_refl l, by simp⟩
        · rename_i f hf; exact absurd hf (hx f)
        · exact .inr ⟨rfl, _, rfl, by simp⟩
        · exact .inr ⟨rfl, _, rfl, fun _ => rfl⟩
    · exact .inl ⟨forall2_refl same_refl l, fun _ => rfl⟩

theorem same_mk_trans {c : Option String} (a b x : FSet) (h1 : Same a b) (h2 : Mk c b x) : Mk c a x := by
  refine ⟨kept_trans _ _ _ h1.1 h2.kept, fun h => h2.stays (by rw [h1.2.2.2]; exact h), fun h => ?_⟩
  have := h2.fresh h
  rw [h1.2.2.2, h1.2.1] at this; exact this

/-- sets read, resized and cleaned up -/
theorem evolves_of {d : FDep} (hd : Plain d) {e : Env} (hx : ∀ f, e.created ≠ .existing f) {create : Bool} {l : List FSet} (hfr : ∀ f ∈ l, f.set.name ≠ e.fresh) (hu : Unique l)
    {s : List FSet} (h : ∀ c, Unique (getNew d e create l).sets → ((getNew d e create l).err = false → (getNew d e create l).new = c) →
      List.Forall₂ (Mk c) (getNew d e create l).sets s) : Evolves d l s := by
  rcases getNew_evolves hx create hu with ⟨h1, h2⟩ | ⟨h1, size, h2, h3⟩
  · exact .inl (forall2_trans same_mk_trans h1 (h _ (unique_forall2 (fun a b hr => hr.1.1) h1 hu) h2))
  · refine .inr ⟨h1, newSet d e l size, rfl, new_matches hd e l size, ?_⟩
    have := h (some e.fresh) (by
      rw [h2]
      unfold Unique at hu ⊢
      rw [List.map_append, List.nodup_append]
      refine ⟨hu, by simp, fun a ha b hb => ?_⟩
      obtain ⟨f, hf, rfl⟩ := List.mem_map.1 ha
      rw [List.map_cons, List.map_nil, List.mem_singleton] at hb
      rw [hb]; exact hfr f hf) h3
    rw [h2] at this
    exact this

theorem old_mem {d : FDep} {e : Env} {create : Bool} {l : List FSet} {c : Option String} (hc : (getNew d e create l).new = c) :
    ∀ f ∈ oldSets (getNew d e create l), f ∈ (getNew d e create l).sets ∧ c ≠ some f.set.name := by
  intro f hf
  unfold oldSets at hf
  rw [hc] at hf
  cases c with
  | none => exact ⟨hf, nofun⟩
  | some n =>
    obtain ⟨h1, h2⟩ := mem_others.1 hf
    exact ⟨h1, fun h => h2 (Option.some.inj h).symm⟩

theorem sync_evolves {d : FDep} (hd : Plain d) {e : Env} {l : List FSet} (hu : Unique l) (hx : ∀ f, e.created ≠ .existing f) (hfr : ∀ f ∈ l, f.set.name ≠ e.fresh) :
    Evolves d l (sync d e l) := by
  refine evolves_of hd hx (create := false) hfr hu fun c hu' hc => ?_
  unfold sync
  dsimp only
  split
  · exact forall2_refl (fun a => Mk.refl _ a) _
  · split
    · exact (resize_sz _ _).imp fun _ _ h => h.mk' c
    · unfold pausedCleanup
      rw [hd.unpaused]
      exact (resize_sz _ _).imp fun _ _ h => h.mk' c

theorem rolling_evolves {d : FDep} (hd : Plain d) {e : Env} {l : List FSet} (hu : Unique l) (hx : ∀ f, e.created ≠ .existing f) (hfr : ∀ f ∈ l, f.set.name ≠ e.fresh)
    (hs : ∀ l, (e.cleanupSort l).Perm l) : Evolves d l (rolloutRolling d e l) := by
  refine evolves_of hd hx (create := true) hfr hu fun c hu' hc => ?_
  unfold rolloutRolling
  dsimp only
  split
  · exact forall2_refl (fun a => Mk.refl _ a) _
  · rename_i herr
    split
    · exact forall2_refl (fun a => Mk.refl _ a) _
    · exact cleanup_mk hs hu' (resizeMS_sz _ _ _) (old_mem (hc (by simpa using herr)))

theorem recreate_evolves {d : FDep} (hd : Plain d) {e : Env} {l : List FSet} (hu : Unique l) (hx : ∀ f, e.created ≠ .existing f) (hfr : ∀ f ∈ l, f.set.name ≠ e.fresh)
    (hs : ∀ l, (e.cleanupSort l).Perm l) : Evolves d l (rolloutRecreate d e l) := by
  unfold rolloutRecreate
  extract_lets g v wait g2 r
  have h2 : g.err = false → ∃ create, g2 = getNew d e create l := by
    intro he
    by_cases hc : (g.new.isNone && !wait) = true
    · have : g2 = getNew d e true g.sets := if_pos hc
      have hn : g.new = none := by
        cases hx : g.new with
        | none => rfl
        | some n => rw [hx] at hc; simp at hc
      have hgs : g.sets = l := getNew_twice d e l hn he
      exact ⟨true, by rw [this, hgs]⟩
    · exact ⟨false, if_neg hc⟩
  split
  · exact evolves_of hd hx (create := false) hfr hu fun c hu' hc => forall2_refl (fun a => Mk.refl _ a) _
  · rename_i he
    obtain ⟨create, h2⟩ := h2 (by simpa using he)
    refine evolves_of hd hx (create := create) hfr hu fun c hu' hc => ?_
    rw [h2]
    split
    · exact forall2_refl (fun a => Mk.refl _ a) _
    · rename_i herr
      exact cleanup_mk hs hu' (resize_sz _ _) (old_mem (hc (by simpa using herr)))

/-- **which sets a run marks** -/
theorem reconcile_evolves {d : FDep} (hd : Plain d) {e : Env} {l : List FSet} (hu : Unique l) (hx : ∀ f, e.created ≠ .existing f) (hfr : ∀ f ∈ l, f.set.name ≠ e.fresh)
    (hs : ∀ l, (e.cleanupSort l).Perm l) : Evolves d l (reconcile d e l).sets := by
  rcases reconcile_rolls hd e l with h | h
  · rw [h]; exact Evolves.refl d l
  · rw [h]
    unfold scaleOrRoll
    dsimp only
    split
    · exact evolves_of hd hx (create := false) hfr hu fun c hu' hc => forall2_refl (fun a => Mk.refl _ a) _
    · split
      · exact sync_evolves hd hu hx hfr
      · split
        · exact recreate_evolves hd hu hx hfr hs
        · exact rolling_evolves hd hu hx hfr hs
        · exact Evolves.refl d l

/-! ### How often sets can be marked and removed -/

/-- the current set is not being deleted -/
def Fresh (d : FDep) (l : List FSet) : Prop := ∀ c, cur d l = some c → c.deleting = false

/-- names, sizes and marks -/
def keys (l : List FSet) : List (String × Int × Bool) := l.map fun f => (f.set.name, f.set.spec, f.deleting)

/-- 1 if there is no current set -/
def vacant (d : FDep) (l : List FSet) : Nat := if (cur d l).isNone then 1 else 0

/-- number of sets that are not being deleted -/
def unmarked (l : List FSet) : Nat := l.countP fun f => !f.deleting

/-- how many sets there are, counting a current one that is yet to be made -/
def room (d : FDep) (l : List FSet) : Nat := l.length + vacant d l

/-- how many sets can be marked and removed, with weights -/
def slack (d : FDep) (l : List FSet) : Nat := 2 * room d l + (unmarked l + vacant d l)

/-- the same set, apart from its status -/
structure Still (a b : FSet) : Prop extends Agree a b where
  mark : b.deleting = a.deleting

theorem Still.refl (a : FSet) : Still a a := ⟨⟨rfl, rfl, rfl, rfl, rfl, rfl, rfl⟩, rfl⟩

theorem still_trans (a b c : FSet) (h1 : Still a b) (h2 : Still b c) : Still a c :=
  ⟨⟨h2.name.trans h1.name, h2.spec.trans h1.spec, h2.desired.trans h1.desired, h2.maxR.trans h1.maxR, h2.tmpl.trans h1.tmpl, h2.annotations.trans h1.annotations,
    h2.minReady.trans h1.minReady⟩, h2.mark.trans h1.mark⟩

theorem keys_mem {l l' : List FSet} (h : keys l' = keys l) {f : FSet} (hf : f ∈ l) :
    ∃ f' ∈ l', f'.set.name = f.set.name ∧ f'.set.spec = f.set.spec ∧ f'.deleting = f.deleting := by
  have : (f.set.name, f.set.spec, f.deleting) ∈ keys l' := by rw [h]; exact List.mem_map.2 ⟨f, hf, rfl⟩
  obtain ⟨f', hf', he⟩ := List.mem_map.1 this
  injection he with h1 h2
  injection h2 with h2 h3
  exact ⟨f', hf', h1, h2, h3⟩

theorem keys_specs {l l' : List FSet} (h : keys l' = keys l) : specs l' = specs l := by
  have : ∀ l : List FSet, specs l = (keys l).map fun k => (k.1, k.2.1) := fun l => by unfold specs keys; rw [List.map_map]; rfl
  rw [this, this, h]

theorem still_keys {l l' : List FSet} (h : List.Forall₂ Still l l') : keys l' = keys l :=
  map_forall2 (g := fun f : FSet => (f.set.name, f.set.spec, f.deleting)) (fun a b hr => by rw [hr.name, hr.spec, hr.mark]) h

theorem countP_forall2 {R : FSet → FSet → Prop} {p : FSet → Bool} (hR : ∀ a b, R a b → p b = true → p a = true) {l l' : List FSet} (h : List.Forall₂ R l l') :
    l'.countP p ≤ l.countP p ∧ (l'.countP p = l.countP p → l'.map p = l.map p) := by
  induction h with
  | nil => exact ⟨Nat.le_refl _, fun _ => rfl⟩
  | @cons a b l l' hr _ ih =>
    rw [List.countP_cons, List.countP_cons, List.map_cons, List.map_cons]
    have := hR a b hr
    cases ha : p a <;> cases hb : p b
    · simp only [Bool.false_eq_true, if_false, Nat.add_zero]; exact ⟨ih.1, fun h => by rw [ih.2 h]⟩
    · rw [ha, hb] at this; cases this rfl
    · simp only [if_true, Bool.false_eq_true, if_false]; exact ⟨by omega, fun h => by omega⟩
    · simp only [if_true]; exact ⟨by omega, fun h => by rw [ih.2 (by omega)]⟩

theorem vacant_kept {d : FDep} {R : FSet → FSet → Prop} (hR : ∀ a b, R a b → b.tmpl.labels = a.tmpl.labels ∧ b.tmpl.body = a.tmpl.body) {l l' : List FSet}
    (h : List.Forall₂ R l l') : vacant d l' = vacant d l := by
  unfold vacant
  rcases cur_forall2 (d := d) hR h with ⟨h1, h2⟩ | ⟨a, b, h1, h2, _⟩ <;> simp [h1, h2]

theorem still_slack {d : FDep} {l l' : List FSet} (h : List.Forall₂ Still l l') : slack d l' = slack d l ∧ room d l' = room d l := by
  have hv := vacant_kept (d := d) (fun a b hr => by rw [hr.tmpl]; exact ⟨rfl, rfl⟩) h
  have hl := h.length_eq
  have hu : unmarked l' = unmarked l := by
    unfold unmarked
    induction h with
    | nil => rfl
    | cons hr h ih =>
      rw [List.countP_cons, List.countP_cons, hr.mark, ih (vacant_kept (fun a b hr => by rw [hr.tmpl]; exact ⟨rfl, rfl⟩) h) h.length_eq]
  unfold slack room
  rw [hv, hu, hl]; exact ⟨rfl, rfl⟩

theorem still_fresh {d : FDep} {l l' : List FSet} (h : List.Forall₂ Still l l') (hf : Fresh d l) : Fresh d l' := by
  intro c hc
  rcases cur_forall2 (d := d) (fun a b hr => by rw [hr.tmpl]; exact ⟨rfl, rfl⟩) h with ⟨_, h2⟩ | ⟨a, b, h1, h2, hr⟩
  · rw [h2] at hc; cases hc
  · rw [h2] at hc; cases hc
    rw [hr.mark]; exact hf a h1

theorem cur_append {d : FDep} {l : List FSet} (h : cur d l = none) {x : FSet} (hx : equalIgnoreHash x.tmpl d.template = true) : cur d (l ++ [x]) = some x := by
  unfold cur at h ⊢
  rw [List.find?_append, h, List.find?_cons, hx]; rfl

/-- the current set keeps its name and is not marked; the other sets keep theirs, and are marked only if their size is zero -/
theorem evolves_cur {d : FDep} {l l' : List FSet} (h : Evolves d l l') {c : FSet} (hc : cur d l = some c) :
    ∃ c', cur d l' = some c' ∧ c'.set.name = c.set.name ∧ c'.deleting = c.deleting := by
  rcases h with h | ⟨h1, _⟩
  · rcases cur_forall2 (d := d) (fun a b hr => hr.kept.2) h with ⟨h1, _⟩ | ⟨a, b, h1, h2, hr⟩
    · rw [h1] at hc; cases hc
    · rw [h1] at hr
      obtain rfl : a = c := Option.some.inj (h1.symm.trans hc)
      refine ⟨b, h2, hr.kept.1, ?_⟩
      cases hb : b.deleting with
      | true =>
        rcases hr.fresh hb with h | ⟨_, h⟩
        · exact h.symm
        · exact absurd rfl h
      | false =>
        cases ha : a.deleting with
        | true => rw [hr.stays ha] at hb; cases hb
        | false => rfl
  · rw [h1] at hc; cases hc

theorem evolves_fresh {d : FDep} {l l' : List FSet} (h : Evolves d l l') (hf : Fresh d l) : Fresh d l' := by
  intro c' hc'
  cases hc : cur d l with
  | some c =>
    obtain ⟨x, h1, _, h3⟩ := evolves_cur h hc
    rw [h1] at hc'; cases hc'
    rw [h3]; exact hf c hc
  | none =>
    rcases h with h | ⟨_, x, hx1, hx2, h⟩
    · rcases cur_forall2 (d := d) (fun a b hr => hr.kept.2) h with ⟨_, h2⟩ | ⟨a, b, h1, _, _⟩
      · rw [h2] at hc'; cases hc'
      · rw [h1] at hc; cases hc
    · rcases cur_forall2 (d := d) (fun a b hr => hr.kept.2) h with ⟨h1, _⟩ | ⟨a, b, h1, h2, hr⟩
      · rw [cur_append hc hx2] at h1; cases h1
      · rw [cur_append hc hx2] at h1; cases h1
        obtain rfl : b = c' := Option.some.inj (h2.symm.trans hc')
        cases hb : b.deleting with
        | false => rfl
        | true =>
          rcases hr.fresh hb with h | ⟨_, h⟩
          · rw [hx1] at h; cases h
          · exact absurd rfl h

/-- a run leaves no more sets to be marked and removed, and if it changes no size, then fewer or the same -/
theorem evolves_slack {d : FDep} {l l' : List FSet} (h : Evolves d l l') :
    slack d l' ≤ slack d l ∧ room d l' = room d l ∧ (specs l' = specs l → slack d l' < slack d l ∨ keys l' = keys l) := by
  have count : ∀ {c : Option String} {l l' : List FSet}, List.Forall₂ (Mk c) l l' → unmarked l' ≤ unmarked l ∧ (unmarked l' = unmarked l →
      l'.map (fun f => !f.deleting) = l.map fun f => !f.deleting) := fun h =>
    countP_forall2 (fun a b hr hb => by
      cases ha : a.deleting with
      | false => rfl
      | true => rw [hr.stays ha] at hb; cases hb) h
  rcases h with h | ⟨h1, x, hx1, hx2, h⟩
  · have hv := vacant_kept (d := d) (fun a b hr => hr.kept.2) h
    have hl := h.length_eq
    obtain ⟨h2, h3⟩ := count h
    unfold slack room
    rw [hv, hl]
    refine ⟨by omega, rfl, fun hs => ?_⟩
    rcases Nat.lt_or_ge (unmarked l') (unmarked l) with hlt | hge
    · exact .inl (by omega)
    · right
      have hm := h3 (by omega)
      clear h2 h3 hv hl hge h
      unfold specs at hs
      unfold keys
      induction l generalizing l' with
      | nil => cases l' with
        | nil => rfl
        | cons _ _ => cases hs
      | cons a l ih => cases l' with
        | nil => cases hs
        | cons b l' =>
          rw [List.map_cons, List.map_cons] at hs hm
          injection hs with s1 s2
          injection hm with m1 m2
          injection s1 with s3 s4
          rw [List.map_cons, List.map_cons, ih s2 m2, s3, s4]
          have : b.deleting = a.deleting := by cases hb : b.deleting <;> cases ha : a.deleting <;> simp_all
          rw [this]
  · have hl := h.length_eq
    rw [List.length_append, List.length_singleton] at hl
    have hv : vacant d l' = 0 := by rw [vacant_kept (d := d) (fun a b hr => hr.kept.2) h]; unfold vacant; rw [cur_append h1 hx2]; rfl
    have hv0 : vacant d l = 1 := by unfold vacant; rw [h1]; rfl
    obtain ⟨h2, _⟩ := count h
    have hu : unmarked (l ++ [x]) = unmarked l + 1 := by
      unfold unmarked
      rw [List.countP_append, List.countP_singleton, hx1]; rfl
    unfold slack room
    rw [hv, hv0]
    refine ⟨by omega, by omega, fun hs => ?_⟩
    have := congrArg List.length hs
    unfold specs at this
    rw [List.length_map, List.length_map] at this
    omega

theorem cur_drop {d : FDep} {l : List FSet} {n : String} (h : ∀ c, cur d l = some c → c.set.name ≠ n) : cur d (others l n) = cur d l := by
  unfold cur others at *
  induction l with
  | nil => rfl
  | cons a l ih =>
    rw [List.find?_cons] at h
    rw [List.filter_cons, List.find?_cons]
    cases hp : equalIgnoreHash a.tmpl d.template with
    | true =>
      rw [hp] at h
      have := h a rfl
      rw [if_pos (by simpa using this), List.find?_cons, hp]
    | false =>
      rw [hp] at h
      split
      · rw [List.find?_cons, hp]; exact ih h
      · exact ih h

/-- the removal of a set that is being deleted does not concern the current one -/
theorem fresh_drop {d : FDep} {l : List FSet} (hu : Unique l) (hf : Fresh d l) {f : FSet} (hm : f ∈ l) (hdel : f.deleting = true) : cur d (others l f.set.name) = cur d l := by
  refine cur_drop fun c hc hn => ?_
  rw [unique_eq l hu c f (cur_mem hc) hm hn] at hc
  rw [hf f hc] at hdel; cases hdel

theorem drop_slack {d : FDep} {l : List FSet} (hu : Unique l) (hf : Fresh d l) {f : FSet} (hm : f ∈ l) (hdel : f.deleting = true) :
    slack d (others l f.set.name) + 2 ≤ slack d l ∧ room d (others l f.set.name) + 1 ≤ room d l := by
  have hv : vacant d (others l f.set.name) = vacant d l := by unfold vacant; rw [fresh_drop hu hf hm hdel]
  have hlen : (others l f.set.name).length < l.length := by
    refine List.length_filter_lt_length_iff_exists.2 ⟨f, hm, by simp⟩
  have hun : unmarked (others l f.set.name) ≤ unmarked l := (List.filter_sublist).countP_le
  unfold slack room
  rw [hv]
  omega

end MCM.Dispatch
