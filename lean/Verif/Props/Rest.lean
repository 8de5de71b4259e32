import Verif.Lemmas.Twin
import Verif.Lemmas.Marks
import Verif.Props.Revision
/-!
C133: what has been reached is left alone: once sets and machines are as the deployment wants them, the controllers come to rest.
-/
namespace MCM.Rest
open MCM MCM.Template MCM.Dispatch

/-! ### Specification -/

/-- The set `c` of the template has the size of the deployment and all other sets have size zero. -/
structure At (d : FDep) (l : List FSet) (c : FSet) : Prop where
  unique : Dispatch.Unique l
  cur : l.find? (fun f => equalIgnoreHash f.tmpl d.template) = some c
  size : c.set.spec = d.spec.replicas
  alive : c.deleting = false
  others : ∀ f ∈ l, f.set.name ≠ c.set.name → f.set.spec = 0
  /-- the revisions of the other sets have a successor among the numbers of 64 bits -/
  revisions : ∀ f ∈ l, f.set.name ≠ c.set.name → ∀ v, Revision.revision f.annotations = some v → v + 1 < 2 ^ 63

/-- the deployment is neither deleted nor rolled back; annotations have different keys -/
structure Settled (d : FDep) : Prop where
  alive : d.deleting = false
  noRollback : d.rollbackTo = none
  keys : (d.annotations.map Prod.fst).Nodup

/-- sorting gives the same sets in another order -/
structure Sorts (e : Env) : Prop where
  newest : ∀ l, (e.scale.srtNewest l).Perm l
  cleans : ∀ l, (e.cleanupSort l).Perm l

/-- what the machine set controller and the API server change in a set: its status and counters -/
def Reported (a b : FSet) : Prop := ∃ av st g o, b = { a with set := { a.set with avail := av }, status := st, generation := g, observed := o }

/-- Runs of the deployment controller, of which `n` changed some set, between reports of the machine set controller and removals of sets that were being
deleted. -/
inductive Runs (d : FDep) : Nat → List FSet → List FSet → Prop
  | start (l : List FSet) : Runs d 0 l l
  | run {n : Nat} {l l' : List FSet} (e : Env) : Runs d n l l' → Sorts e → Runs d (if (reconcile d e l').sets = l' then n else n + 1) l (reconcile d e l').sets
  | report {n : Nat} {l l' l'' : List FSet} : Runs d n l l' → List.Forall₂ Reported l' l'' → Runs d n l l''
  | gone {n : Nat} {l l' : List FSet} (f : FSet) : Runs d n l l' → f ∈ l' → f.deleting = true → Runs d n l (l'.filter fun g => !(g.set.name == f.set.name))

/-! ### Lemmas -/

/-- the replica annotations of the set are not those of the deployment -/
def stale (d : FDep) (c : FSet) : Bool := decide (c.set.desired ≠ some (Scale.desiredText d.spec) ∨ c.set.maxR ≠ some (Scale.maxText d.spec))

/-- writes still possible -/
def mu (d : FDep) (l : List FSet) (c : FSet) : Nat := (toWrite d l c).toNat + (stale d c).toNat + unmarked l

/-- nothing changes, or fewer writes remain -/
def Down (d : FDep) (l : List FSet) (c : FSet) (l' : List FSet) : Prop := (l' = l ∧ At d l c) ∨ ∃ c', At d l' c' ∧ c'.set.name = c.set.name ∧ mu d l' c' < mu d l c

theorem Down.trans {d : FDep} {l l' l'' : List FSet} {c : FSet} (h : Down d l c l') (h2 : ∀ c', At d l' c' → c'.set.name = c.set.name → Down d l' c' l'') : Down d l c l'' := by
  rcases h with ⟨rfl, h⟩ | ⟨c', h, hn, hm⟩
  · exact h2 c h rfl
  · rcases h2 c' h hn with ⟨rfl, _⟩ | ⟨c'', h', hn', hm'⟩
    · exact .inr ⟨c', h, hn, hm⟩
    · exact .inr ⟨c'', h', hn'.trans hn, by omega⟩

theorem at_map {d : FDep} {l : List FSet} {c : FSet} (h : At d l c) (g : FSet → FSet)
    (hg : ∀ f ∈ l, (g f).set.name = f.set.name ∧ (g f).set.spec = f.set.spec ∧ (g f).tmpl.labels = f.tmpl.labels ∧ (g f).tmpl.body = f.tmpl.body)
    (hann : ∀ f ∈ l, f.set.name ≠ c.set.name → (g f).annotations = f.annotations) (hdel : (g c).deleting = false) : At d (l.map g) (g c) := by
  have hm : c ∈ l := List.mem_of_find?_eq_some h.cur
  have hR : List.Forall₂ (fun a b => b = g a ∧ b.set.name = a.set.name ∧ b.tmpl.labels = a.tmpl.labels ∧ b.tmpl.body = a.tmpl.body) l (l.map g) :=
    forall2_map _ _ fun a ha => ⟨rfl, (hg a ha).1, (hg a ha).2.2.1, (hg a ha).2.2.2⟩
  refine ⟨unique_forall2 (fun _ _ hr => hr.2.1) hR h.unique, ?_, (hg c hm).2.1.trans h.size, hdel, ?_, ?_⟩
  · rcases cur_forall2 (d := d) (fun _ _ hr => ⟨hr.2.2.1, hr.2.2.2⟩) hR with ⟨h1, _⟩ | ⟨a, b, h1, h2, hab⟩
    · have : Dispatch.cur d l = some c := h.cur
      rw [h1] at this; cases this
    · obtain rfl : a = c := Option.some.inj (h1.symm.trans h.cur)
      rw [← hab.1]
      exact h2
  · intro f hf hne
    obtain ⟨a, ha, rfl⟩ := List.mem_map.1 hf
    rw [(hg a ha).2.1]
    refine h.others a ha ?_
    rw [(hg a ha).1, (hg c hm).1] at hne
    exact hne
  · intro f hf hne
    obtain ⟨a, ha, rfl⟩ := List.mem_map.1 hf
    rw [(hg a ha).1, (hg c hm).1] at hne
    rw [hann a ha hne]
    exact h.revisions a ha hne

theorem unmarked_map {l : List FSet} (g : FSet → FSet) (hg : ∀ f ∈ l, f.deleting = true → (g f).deleting = true) : unmarked (l.map g) ≤ unmarked l := by
  unfold unmarked
  induction l with
  | nil => exact Nat.le_refl 0
  | cons a l ih =>
    have := ih fun f hf => hg f (List.mem_cons_of_mem _ hf)
    rw [List.map_cons, List.countP_cons, List.countP_cons]
    have h := hg a (by simp)
    cases ha : a.deleting with
    | true => rw [h ha]; simpa using this
    | false =>
      cases (g a).deleting <;> simp [-List.countP_map] <;> omega

/-- the metadata of the current set -/
theorem down_write {d : FDep} (hd : Settled d) {l : List FSet} {c : FSet} (h : At d l c) (hw : toWrite d l c = true) : Down d l c (writeCur d l c) := by
  have hm : c ∈ l := List.mem_of_find?_eq_some h.cur
  have hc : (if (c.set.name == c.set.name) = true then written d l c else c) = written d l c := if_pos (by simp)
  have ha : At d (writeCur d l c) (written d l c) := by
    have := at_map h (fun f => if f.set.name == c.set.name then written d l c else f) (by
      intro f hf
      split
      · rename_i hn
        obtain rfl : f = c := unique_eq l h.unique f c hf hm (by simpa using hn)
        exact ⟨rfl, rfl, rfl, rfl⟩
      · exact ⟨rfl, rfl, rfl, rfl⟩) (by
      intro f _ hne
      rw [if_neg (by simpa using hne)]) (by rw [hc]; exact h.alive)
    rw [hc] at this
    exact this
  refine .inr ⟨_, ha, rfl, ?_⟩
  have h0 : toWrite d (writeCur d l c) (written d l c) = false := write_quiet hd.keys h.unique h.cur _ ha.cur
  have h1 : stale d (written d l c) = stale d c := rfl
  have h2 : unmarked (writeCur d l c) ≤ unmarked l := unmarked_map _ (by
    intro f hf hdel
    split
    · rename_i hn
      obtain rfl : f = c := unique_eq l h.unique f c hf hm (by simpa using hn)
      exact hdel
    · exact hdel)
  unfold mu
  rw [h0, h1, hw]
  simp only [Bool.toNat_true, Bool.toNat_false]
  omega

/-- the replica annotations of the current set -/
theorem down_annotate {d : FDep} {l : List FSet} {c : FSet} (h : At d l c) (ok : Bool) :
    Down d l c (l.map fun f => if f.set.name == c.set.name then { f with set := (Scale.scaleSet d.spec ok c.set d.spec.replicas).1 } else f) := by
  have hm : c ∈ l := List.mem_of_find?_eq_some h.cur
  have hu : ∀ f ∈ l, f.set.name == c.set.name → f = c := fun f hf hn => unique_eq l h.unique f c hf hm (by simpa using hn)
  cases hs : stale d c && ok with
  | false =>
    have hsame : (Scale.scaleSet d.spec ok c.set d.spec.replicas).1 = c.set := by
      unfold Scale.scaleSet
      split
      · rename_i hx
        cases ok with
        | false => rfl
        | true =>
          rw [Bool.and_true] at hs
          unfold stale at hs
          rw [decide_eq_false_iff_not] at hs
          rcases hx with hx | hx
          · exact absurd h.size hx
          · exact absurd hx hs
      · rfl
    refine .inl ⟨?_, h⟩
    conv => rhs; rw [← List.map_id l]
    refine List.map_congr_left fun f hf => ?_
    split
    · rename_i hn
      obtain rfl := hu f hf hn
      rw [hsame]; rfl
    · rfl
  | true =>
    rw [Bool.and_eq_true] at hs
    obtain ⟨hs, rfl⟩ := hs
    have hs' := hs
    unfold stale at hs'
    rw [decide_eq_true_iff] at hs'
    have hset : (Scale.scaleSet d.spec true c.set d.spec.replicas).1 =
        { c.set with spec := d.spec.replicas, desired := some (Scale.desiredText d.spec), maxR := some (Scale.maxText d.spec) } := by
      unfold Scale.scaleSet
      rw [if_pos (.inr hs'), if_pos rfl]
    rw [hset]
    generalize hg : (fun f : FSet => if f.set.name == c.set.name then
      { f with set := { c.set with spec := d.spec.replicas, desired := some (Scale.desiredText d.spec), maxR := some (Scale.maxText d.spec) } } else f) = g
    have hgc : g c = { c with set := { c.set with spec := d.spec.replicas, desired := some (Scale.desiredText d.spec), maxR := some (Scale.maxText d.spec) } } := by
      rw [← hg]; exact if_pos (by simp)
    have hgf : ∀ f ∈ l, SameRev f (g f) ∧ (g f).set.spec = f.set.spec ∧ (g f).deleting = f.deleting := by
      intro f hf
      rw [← hg]
      dsimp only
      split
      · rename_i hn
        obtain rfl := hu f hf hn
        exact ⟨⟨rfl, rfl, rfl, rfl⟩, h.size.symm, rfl⟩
      · exact ⟨⟨rfl, rfl, rfl, rfl⟩, rfl, rfl⟩
    refine .inr ⟨g c, at_map h g (fun f hf => ⟨(hgf f hf).1.name, (hgf f hf).2.1, by rw [(hgf f hf).1.tmpl], by rw [(hgf f hf).1.tmpl]⟩)
      (fun f hf _ => (hgf f hf).1.annotations) (by rw [(hgf c hm).2.2]; exact h.alive), (hgf c hm).1.name, ?_⟩
    have h0 : toWrite d (l.map g) (g c) = toWrite d l c := toWrite_congr (forall2_map _ _ fun a ha => (hgf a ha).1) (hgf c hm).1
    have h1 : stale d (g c) = false := by
      unfold stale
      rw [hgc]
      simp
    have h2 : unmarked (l.map g) ≤ unmarked l := unmarked_map _ fun f hf hdel => by rw [(hgf f hf).2.2]; exact hdel
    unfold mu
    rw [h0, h1, hs]
    simp only [Bool.toNat_true, Bool.toNat_false]
    omega

theorem marks_or (p : FSet → Bool) (l : List FSet) : (l.map fun f => if p f then { f with deleting := true } else f) = l ∨
    unmarked (l.map fun f => if p f then { f with deleting := true } else f) < unmarked l := by
  induction l with
  | nil => exact .inl rfl
  | cons a l ih =>
    have hle : unmarked (l.map fun f => if p f then { f with deleting := true } else f) ≤ unmarked l := unmarked_map _ (by
      intro f _ hdel
      split
      · rfl
      · exact hdel)
    unfold unmarked at *
    rw [List.map_cons, List.countP_cons, List.countP_cons]
    cases hp : p a with
    | false =>
      rw [if_neg (by simp)]
      rcases ih with ih | ih
      · left; rw [ih]
      · right; omega
    | true =>
      rw [if_pos rfl]
      cases hdel : a.deleting with
      | false => right; simp [-List.countP_map]; omega
      | true =>
        have ha : ({ a with deleting := true } : FSet) = a := by cases a; cases hdel; rfl
        rw [ha]
        rcases ih with ih | ih
        · left; rw [ih]
        · right; rw [hdel]; omega

/-- marks of other sets -/
theorem down_mark {d : FDep} {l : List FSet} {c : FSet} (h : At d l c) (p : FSet → Bool) (hp : p c = false) :
    Down d l c (l.map fun f => if p f then { f with deleting := true } else f) := by
  rcases marks_or p l with hl | hl
  · exact .inl ⟨hl, h⟩
  · have hm : c ∈ l := List.mem_of_find?_eq_some h.cur
    generalize hg : (fun f : FSet => if p f then { f with deleting := true } else f) = g at hl ⊢
    have hgc : g c = c := by rw [← hg]; dsimp only; rw [hp]; rfl
    have hgf : ∀ f, SameRev f (g f) ∧ (g f).set = f.set := by
      intro f
      rw [← hg]
      dsimp only
      split <;> exact ⟨⟨rfl, rfl, rfl, rfl⟩, rfl⟩
    have ha := at_map h g (fun f _ => ⟨by rw [(hgf f).2], by rw [(hgf f).2], by rw [(hgf f).1.tmpl], by rw [(hgf f).1.tmpl]⟩) (fun f _ _ => (hgf f).1.annotations) (by rw [hgc]; exact h.alive)
    rw [hgc] at ha
    refine .inr ⟨c, ha, rfl, ?_⟩
    have h0 : toWrite d (l.map g) c = toWrite d l c := toWrite_congr (forall2_map _ _ fun a _ => (hgf a).1) ⟨rfl, rfl, rfl, rfl⟩
    unfold mu
    rw [h0]
    omega

theorem down_cleanup {d : FDep} {e : Env} (he : Sorts e) {l : List FSet} {c : FSet} (h : At d l c) {old : List FSet} (hold : ∀ f ∈ old, f.set.name ≠ c.set.name) :
    Down d l c (cleanup d e old l) := by
  unfold cleanup
  dsimp only
  refine down_mark h (fun f => ((Rollback.cleanup e.cleanupSort e.cleanupFails d.limit (old.map oldOf)).deleted.filter fun o => !(e.cleanupFails o && e.cleanupLost o)).any fun o => o.name == f.set.name) ?_
  rw [List.any_eq_false]
  intro o ho
  obtain ⟨h1, _⟩ := cleanup_mem he.cleans (List.mem_filter.1 ho).1
  obtain ⟨f, hf, rfl⟩ := List.mem_map.1 h1
  simpa [oldOf] using hold f hf

theorem down_refl {d : FDep} {l : List FSet} {c : FSet} (h : At d l c) : Down d l c l := .inl ⟨rfl, h⟩

/-- looking for the current set -/
theorem getNew_at {d : FDep} (hd : Settled d) {l : List FSet} {c : FSet} (h : At d l c) (e : Env) (b : Bool) :
    ((getNew d e b l).err = true ∧ (getNew d e b l).sets = l) ∨
    ((getNew d e b l).err = false ∧ (getNew d e b l).new = some c.set.name ∧ Down d l c (getNew d e b l).sets ∧
      ((getNew d e b l).wrote = false → (getNew d e b l).sets = l)) := by
  rw [getNew_cur h.cur]
  cases hw : toWrite d l c with
  | true =>
    rw [sync_write hw]
    cases e.setOk with
    | true => exact .inr ⟨rfl, rfl, down_write hd h hw, fun h => by cases h⟩
    | false => exact .inl ⟨rfl, rfl⟩
  | false =>
    rw [sync_rest hw]
    cases e.depOk with
    | true => exact .inr ⟨rfl, rfl, down_refl h, fun _ => rfl⟩
    | false => exact .inl ⟨rfl, rfl⟩

theorem cur_of {l : List FSet} {d : FDep} {c : FSet} (h : At d l c) (g : Got) (hs : g.sets = l) (hn : g.new = some c.set.name) :
    curSet g = some c ∧ oldSets g = Dispatch.others l c.set.name := by
  have hm : c ∈ l := List.mem_of_find?_eq_some h.cur
  refine ⟨?_, by unfold oldSets; rw [hn, hs]⟩
  have := curSet_eq h.unique hm
  unfold curSet at this ⊢
  rw [hn, hs]
  exact this

theorem active_old {d : FDep} {l : List FSet} {c : FSet} (h : At d l c) : ∀ s ∈ (Dispatch.others l c.set.name).map (·.set), ¬ s.spec > 0 := by
  intro s hs
  obtain ⟨f, hf, rfl⟩ := List.mem_map.1 hs
  obtain ⟨h1, h2⟩ := mem_others.1 hf
  rw [h.others f h1 h2]
  decide

/-- scaling what has the right size -/
theorem scale_at {d : FDep} {l : List FSet} {c : FSet} (h : At d l c) {e : Env} (he : Sorts e) :
    resize l (Scale.scale d.spec e.scale ((Dispatch.others l c.set.name).map (·.set)) (some c.set)).1 =
      l.map fun f => if f.set.name == c.set.name then { f with set := (Scale.scaleSet d.spec (e.scale.ok c.set) c.set d.spec.replicas).1 } else f := by
  have hm : c ∈ l := List.mem_of_find?_eq_some h.cur
  have hact : Scale.findActiveOrLatest e.scale ((Dispatch.others l c.set.name).map (·.set)) (some c.set) = some c.set := by
    unfold Scale.findActiveOrLatest Scale.active
    rw [List.filter_append, List.filter_eq_nil_iff.2 (by
      intro s hs
      have := active_old h s ((he.newest _).mem_iff.1 hs)
      simpa using this), List.nil_append]
    by_cases hp : c.set.spec > 0
    · rw [show List.filter _ (some c.set).toList = [c.set] by simp [hp]]
    · rw [show List.filter _ (some c.set).toList = [] by simp [hp]]
  unfold Scale.scale
  dsimp only
  rw [hact]
  dsimp only
  rw [if_pos h.size]
  generalize hs' : (Scale.scaleSet d.spec (e.scale.ok c.set) c.set d.spec.replicas).1 = s'
  have hname : s'.name = c.set.name := by
    rw [← hs']
    unfold Scale.scaleSet
    split
    · split <;> rfl
    · rfl
  unfold resize
  refine List.map_congr_left fun f hf => ?_
  have key : ∀ s ∈ Scale.replaceSet ((Dispatch.others l c.set.name).map (·.set) ++ (some c.set).toList) s', s.name = f.set.name →
      s = if f.set.name == c.set.name then s' else f.set := by
    intro s hs hn
    unfold Scale.replaceSet at hs
    obtain ⟨x, hx, rfl⟩ := List.mem_map.1 hs
    by_cases hxn : x.name = s'.name
    · rw [if_pos hxn] at hn ⊢
      rw [if_pos (by rw [← hn, hname]; simp)]
    · rw [if_neg hxn] at hn ⊢
      rw [hname] at hxn
      rw [if_neg (by rw [← hn]; simpa using hxn)]
      rcases List.mem_append.1 hx with hx | hx
      · obtain ⟨y, hy, rfl⟩ := List.mem_map.1 hx
        rw [unique_eq l h.unique y f (mem_others.1 hy).1 hf hn]
      · have : x = c.set := by simpa using hx
        exact absurd (by rw [this]) hxn
  cases hfind : (Scale.replaceSet ((Dispatch.others l c.set.name).map (·.set) ++ (some c.set).toList) s').find? (fun s => s.name == f.set.name) with
  | some s =>
    dsimp only
    have h1 := List.find?_some hfind
    rw [key s (List.mem_of_find?_eq_some hfind) (by simpa using h1)]
    split <;> rfl
  | none =>
    exfalso
    rw [List.find?_eq_none] at hfind
    unfold Scale.replaceSet at hfind
    by_cases hn : f.set.name = c.set.name
    · refine hfind s' (List.mem_map.2 ⟨c.set, by simp, if_pos hname.symm⟩) ?_
      rw [hname, hn]; simp
    · refine hfind f.set (List.mem_map.2 ⟨f.set, List.mem_append_left _ (List.mem_map.2 ⟨f, mem_others.2 ⟨hf, hn⟩, rfl⟩), if_neg (by rw [hname]; exact hn)⟩) (by simp)

theorem sync_at {d : FDep} (hd : Settled d) {l : List FSet} {c : FSet} (h : At d l c) {e : Env} (he : Sorts e) : Down d l c (sync d e l) := by
  unfold sync
  dsimp only
  rcases getNew_at hd h e false with ⟨h1, h2⟩ | ⟨h1, h2, h3, _⟩
  · rw [if_pos h1, h2]; exact down_refl h
  · rw [if_neg (by simp [h1])]
    refine h3.trans fun c' hc' hn => ?_
    obtain ⟨k1, k2⟩ := cur_of hc' (getNew d e false l) rfl (by rw [h2, hn])
    rw [k1, k2, Option.map_some, scale_at hc' he]
    have hdown := down_annotate hc' (e.scale.ok c'.set)
    split
    · exact hdown
    · unfold pausedCleanup
      split
      · refine hdown.trans fun c'' hc'' hn'' => down_cleanup he hc'' ?_
        intro f hf
        rw [hn'']
        exact (mem_others.1 hf).2
      · exact hdown

/-- no size changes -/
theorem resizeMS_same (d : Rolling.Dep) (l : List FSet) (r : List Rolling.MS) (h : ∀ f ∈ l, ∀ s ∈ r, s.name = f.set.name → s.spec = f.set.spec) : resizeMS d l r = l := by
  unfold resizeMS
  conv => rhs; rw [← List.map_id l]
  refine List.map_congr_left fun f hf => ?_
  cases hfind : r.find? (fun s => s.name == f.set.name) with
  | none => rfl
  | some s =>
    have h1 := List.find?_some hfind
    have := h f hf s (List.mem_of_find?_eq_some hfind) (by simpa using h1)
    dsimp only
    unfold withSize
    rw [if_pos this.symm]
    rfl

theorem resize_same (l : List FSet) (r : List Scale.MSet) (h : ∀ f ∈ l, ∀ s ∈ r, s.name = f.set.name → s = f.set) : resize l r = l := by
  unfold resize
  conv => rhs; rw [← List.map_id l]
  refine List.map_congr_left fun f hf => ?_
  cases hfind : r.find? (fun s => s.name == f.set.name) with
  | none => rfl
  | some s =>
    have h1 := List.find?_some hfind
    have := h f hf s (List.mem_of_find?_eq_some hfind) (by simpa using h1)
    dsimp only
    rw [this]
    rfl

theorem rolloutCleanup_at {d : FDep} {e : Env} (he : Sorts e) {l : List FSet} {c : FSet} (h : At d l c) :
    Down d l c (rolloutCleanup d e (Dispatch.others l c.set.name) l) := by
  unfold rolloutCleanup
  split
  · exact down_cleanup he h fun f hf => (mem_others.1 hf).2
  · exact down_refl h

theorem rolling_at {d : FDep} (hd : Settled d) {l : List FSet} {c : FSet} (h : At d l c) {e : Env} (he : Sorts e) : Down d l c (rolloutRolling d e l) := by
  unfold rolloutRolling
  dsimp only
  rcases getNew_at hd h e true with ⟨h1, h2⟩ | ⟨h1, h2, h3, _⟩
  · rw [if_pos h1, h2]; exact down_refl h
  · rw [if_neg (by simp [h1])]
    refine h3.trans fun c' hc' hn => ?_
    obtain ⟨k1, k2⟩ := cur_of hc' (getNew d e true l) rfl (by rw [h2, hn])
    rw [k1, k2]
    dsimp only
    generalize hls : (getNew d e true l).sets = l' at *
    have hold : ∀ s ∈ (Dispatch.others l' c'.set.name).map msOf, ¬ s.spec > 0 := by
      intro s hs
      obtain ⟨f, hf, rfl⟩ := List.mem_map.1 hs
      exact active_old hc' f.set (List.mem_map.2 ⟨f, hf, rfl⟩)
    have hstep : Rolling.rolloutStep d.spec e.rolling ((Dispatch.others l' c'.set.name).map msOf) (msOf c') = ((Dispatch.others l' c'.set.name).map msOf, msOf c') := by
      unfold Rolling.rolloutStep
      split
      · rfl
      · have : Rolling.reconcileNew d.spec e.rolling.okNew ((Dispatch.others l' c'.set.name).map msOf ++ [msOf c']) (msOf c') = (msOf c', false, false) := by
          unfold Rolling.reconcileNew
          exact if_pos hc'.size
        rw [this]
        dsimp only
        have f1 : ((Dispatch.others l' c'.set.name).map msOf).filter (fun s => decide (s.spec > 0)) = [] := by
          rw [List.filter_eq_nil_iff]; intro s hs; simpa using hold s hs
        have f2 : ((Dispatch.others l' c'.set.name).map msOf).filter (fun s => !(decide (s.spec > 0))) = (Dispatch.others l' c'.set.name).map msOf := by
          rw [List.filter_eq_self]; intro s hs; simpa using hold s hs
        rw [if_neg (by simp), f1, f2]
        unfold Rolling.reconcileOld
        rw [if_pos (by rfl), List.append_nil]
    rw [hstep]
    dsimp only
    have hm : c' ∈ l' := List.mem_of_find?_eq_some hc'.cur
    rw [resizeMS_same]
    · exact rolloutCleanup_at he hc'
    · intro f hf s hs hsn
      rcases List.mem_append.1 hs with hs | hs
      · obtain ⟨x, hx, rfl⟩ := List.mem_map.1 hs
        rw [← unique_eq l' hc'.unique x f (mem_others.1 hx).1 hf hsn]; rfl
      · obtain rfl := List.mem_singleton.1 hs
        rw [← unique_eq l' hc'.unique c' f hm hf hsn]; rfl

theorem recreate_at {d : FDep} (hd : Settled d) {l : List FSet} {c : FSet} (h : At d l c) {e : Env} (he : Sorts e) : Down d l c (rolloutRecreate d e l) := by
  unfold rolloutRecreate
  dsimp only
  rcases getNew_at hd h e false with ⟨h1, h2⟩ | ⟨h1, h2, h3, _⟩
  · rw [if_pos h1, h2]; exact down_refl h
  · have hif : ∀ w : Bool, (if ((getNew d e false l).new.isNone && w) = true then getNew d e true (getNew d e false l).sets else getNew d e false l) =
        getNew d e false l := by
      intro w
      rw [if_neg]
      simp [h2]
    rw [if_neg (by simp [h1])]
    simp only [hif]
    rw [if_neg (by simp [h1])]
    refine h3.trans fun c' hc' hn => ?_
    obtain ⟨k1, k2⟩ := cur_of hc' (getNew d e false l) rfl (by rw [h2, hn])
    rw [k1, k2]
    generalize hls : (getNew d e false l).sets = l' at *
    have hm : c' ∈ l' := List.mem_of_find?_eq_some hc'.cur
    have key : ∀ (st : String → Int), Recreate.rolloutRecreate d.spec { scaleEnv := e.scale, created := (some c').map (·.set) }
        ⟨(Dispatch.others l' c'.set.name).map (·.set), (some c').map (·.set), st, e.machines⟩ = ((Dispatch.others l' c'.set.name).map (·.set), some c'.set) := by
      intro st
      unfold Recreate.rolloutRecreate
      rw [if_neg (by simp)]
      dsimp only
      rw [if_neg (by unfold Scale.active; rw [List.filter_eq_nil_iff.2 (by intro s hs; simpa using active_old hc' s hs)]; simp)]
      split
      · rfl
      · dsimp only [Option.map_some]
        unfold Scale.scaleSetEv
        rw [if_pos hc'.size]
    rw [key]
    dsimp only
    rw [resize_same]
    · exact rolloutCleanup_at he hc'
    · intro f hf s hs hsn
      rcases List.mem_append.1 hs with hs | hs
      · obtain ⟨x, hx, rfl⟩ := List.mem_map.1 hs
        rw [← unique_eq l' hc'.unique x f (mem_others.1 hx).1 hf hsn]
      · have : s = c'.set := by simpa using hs
        subst this
        rw [← unique_eq l' hc'.unique c' f hm hf hsn]

theorem reconcile_at {d : FDep} (hd : Settled d) {l : List FSet} {c : FSet} (h : At d l c) {e : Env} (he : Sorts e) :
    (reconcile d e l).dep = d ∧ Down d l c (reconcile d e l).sets := by
  unfold reconcile
  split
  · exact ⟨rfl, down_refl h⟩
  split
  · exact ⟨rfl, down_refl h⟩
  split
  · exact ⟨rfl, down_refl h⟩
  rw [if_neg (by simp [hd.alive])]
  split
  · exact ⟨rfl, down_refl h⟩
  split
  · exact ⟨rfl, sync_at hd h he⟩
  rw [hd.noRollback]
  refine ⟨rfl, ?_⟩
  dsimp only
  unfold scaleOrRoll
  dsimp only
  split
  · rcases getNew_at hd h e false with ⟨_, h2⟩ | ⟨_, _, h3, _⟩
    · rw [h2]; exact down_refl h
    · exact h3
  split
  · exact sync_at hd h he
  split
  · exact recreate_at hd h he
  · exact rolling_at hd h he
  · exact down_refl h

/-! ### Removals -/

theorem bump_lower {t t' : String} {n n' : Int} (ht : atoi t = some n) (ht' : atoi t' = some n') (hle : n' ≤ n) {ann : SMap} {ch : Bool}
    (h : (Revision.bumpRevision t ann ch).2 = false) :
    (Revision.bumpRevision t ann ch).1 = ann ∧ Revision.bumpRevision t' ann ch = (ann, false) := by
  cases ho : (if ann.get Revision.revKey == "" then some 0 else atoi (ann.get Revision.revKey)) with
  | none => exact ⟨by rw [Revision.bump_bad _ _ _ (.inl ho)], Revision.bump_bad _ _ _ (.inl ho)⟩
  | some o =>
    unfold Revision.bumpRevision at h ⊢
    dsimp only at h ⊢
    rw [ho, ht] at h
    rw [ho, ht, ht']
    dsimp only at h ⊢
    rw [Bool.or_eq_false_iff, decide_eq_false_iff_not] at h
    rw [h.1, if_neg h.2, if_neg (show ¬ o < n' by omega), decide_eq_false h.2, decide_eq_false (show ¬ o < n' by omega)]
    simp

theorem synced_lower {t t' : String} {n n' : Int} (ht : atoi t = some n) (ht' : atoi t' = some n') (hle : n' ≤ n) {da ann : SMap} {df : Revision.Diff}
    (h : (Revision.synced da df t ann).2 = false) : (Revision.synced da df t' ann).2 = false := by
  unfold Revision.synced at h ⊢
  dsimp only at h ⊢
  simp only [Bool.or_eq_false_iff] at h
  obtain ⟨⟨⟨⟨h1, h2⟩, h3⟩, h4⟩, h5⟩ := h
  obtain ⟨e1, b1⟩ := bump_lower ht ht' hle h1
  rw [e1] at h3 h4
  obtain ⟨e2, b2⟩ := bump_lower ht ht' hle h3
  rw [e2] at h4
  obtain ⟨_, b3⟩ := bump_lower ht ht' hle h4
  rw [b1, b2, b3, h2, h5]
  rfl

theorem maxRevision_lt {b : Int} : ∀ (l : List SMap) (m : Int), m < b → (∀ a ∈ l, ∀ v, Revision.revision a = some v → v < b) → Revision.maxRevision l m < b
  | [], _, hm, _ => hm
  | a :: l, m, hm, h => by
    rw [Revision.maxRevision]
    have hl := fun x hx => h x (List.mem_cons_of_mem _ hx)
    cases hr : Revision.revision a with
    | none => exact maxRevision_lt l m hm hl
    | some v =>
      dsimp only
      refine maxRevision_lt l _ ?_ hl
      split
      · exact h a (by simp) v hr
      · exact hm

theorem maxRevision_sublist {l l' : List SMap} (h : l'.Sublist l) : Revision.maxRevision l' 0 ≤ Revision.maxRevision l 0 := by
  have h0 := Revision.le_maxRevision l 0
  have := maxRevision_lt (b := Revision.maxRevision l 0 + 1) l' 0 (by omega) fun a ha v hv => by
    have := Revision.mem_le_maxRevision l 0 a (h.subset ha) v hv
    omega
  omega

theorem at_gone {d : FDep} {l : List FSet} {c : FSet} (h : At d l c) {f : FSet} (hf : f ∈ l) (hdel : f.deleting = true) :
    At d (Dispatch.others l f.set.name) c ∧ mu d (Dispatch.others l f.set.name) c ≤ mu d l c := by
  have hm : c ∈ l := List.mem_of_find?_eq_some h.cur
  have hfresh : Fresh d l := fun x hx => by
    obtain rfl : x = c := Option.some.inj (hx.symm.trans h.cur)
    exact h.alive
  have hsub : (Dispatch.others l f.set.name).Sublist l := List.filter_sublist
  have hne : f.set.name ≠ c.set.name := fun hn => by
    rw [unique_eq l h.unique f c hf hm hn, h.alive] at hdel; cases hdel
  refine ⟨⟨List.Nodup.sublist (hsub.map _) h.unique, (fresh_drop h.unique hfresh hf hdel).trans h.cur, h.size, h.alive,
    fun x hx => h.others x (hsub.subset hx), fun x hx => h.revisions x (hsub.subset hx)⟩, ?_⟩
  have hun : unmarked (Dispatch.others l f.set.name) ≤ unmarked l := hsub.countP_le
  have hw : toWrite d l c = false → toWrite d (Dispatch.others l f.set.name) c = false := by
    intro h0
    have hb : ∀ l' : List FSet, l'.Sublist l → Revision.maxRevision ((Dispatch.others l' c.set.name).map (·.annotations)) 0 + 1 < 2 ^ 63 := by
      intro l' hl'
      have := maxRevision_lt (b := 2 ^ 63 - 1) ((Dispatch.others l' c.set.name).map (·.annotations)) 0 (by decide) (by
        intro a ha v hv
        obtain ⟨x, hx, rfl⟩ := List.mem_map.1 ha
        obtain ⟨h1, h2⟩ := mem_others.1 hx
        have := h.revisions x (hl'.subset h1) h2 v hv
        omega)
      omega
    have hs2 : (Dispatch.others (Dispatch.others l f.set.name) c.set.name).Sublist (Dispatch.others l c.set.name) := hsub.filter _
    have := maxRevision_sublist (hs2.map (·.annotations))
    exact synced_lower (Revision.newRevisionText_atoi _ (hb l (List.Sublist.refl _))) (Revision.newRevisionText_atoi _ (hb _ hsub)) (by omega) h0
  unfold mu
  cases h1 : toWrite d l c with
  | false => rw [hw h1]; omega
  | true =>
    have : (toWrite d (Dispatch.others l f.set.name) c).toNat ≤ 1 := Bool.toNat_le _
    simp only [Bool.toNat_true]
    omega

theorem at_report {d : FDep} {l l' : List FSet} {c : FSet} (h : At d l c) (hr : List.Forall₂ Reported l l') :
    ∃ c', At d l' c' ∧ c'.set.name = c.set.name ∧ mu d l' c' = mu d l c := by
  have hn : ∀ a b, Reported a b → b.set.name = a.set.name := by rintro a _ ⟨_, _, _, _, rfl⟩; rfl
  have hrev : List.Forall₂ SameRev l l' := hr.imp (by rintro a _ ⟨_, _, _, _, rfl⟩; exact ⟨rfl, rfl, rfl, rfl⟩)
  rcases cur_forall2 (d := d) (R := Reported) (by rintro a _ ⟨_, _, _, _, rfl⟩; exact ⟨rfl, rfl⟩) hr with ⟨h1, _⟩ | ⟨a, c', h1, h2, hac⟩
  · have : Dispatch.cur d l = some c := h.cur
    rw [h1] at this; cases this
  · obtain rfl : a = c := Option.some.inj (h1.symm.trans h.cur)
    have hcn := hn _ _ hac
    refine ⟨c', ⟨unique_forall2 hn hr h.unique, h2, ?_, ?_, ?_, ?_⟩, hcn, ?_⟩
    · obtain ⟨_, _, _, _, rfl⟩ := hac; exact h.size
    · obtain ⟨_, _, _, _, rfl⟩ := hac; exact h.alive
    · intro f hf hne
      obtain ⟨g, hg, hgf⟩ := mem_forall2 hr f hf
      rw [hcn, hn _ _ hgf] at hne
      have := h.others g hg hne
      obtain ⟨_, _, _, _, rfl⟩ := hgf; exact this
    · intro f hf hne
      obtain ⟨g, hg, hgf⟩ := mem_forall2 hr f hf
      rw [hcn, hn _ _ hgf] at hne
      have := h.revisions g hg hne
      obtain ⟨_, _, _, _, rfl⟩ := hgf; exact this
    · have h3 : toWrite d l' c' = toWrite d l a := toWrite_congr hrev (by obtain ⟨_, _, _, _, rfl⟩ := hac; exact ⟨rfl, rfl, rfl, rfl⟩)
      have h4 : stale d c' = stale d a := by obtain ⟨_, _, _, _, rfl⟩ := hac; rfl
      have h5 : unmarked l' = unmarked l := by
        unfold unmarked
        rw [List.countP_eq_length_filter, List.countP_eq_length_filter]
        have := map_forall2 (g := fun f => f.deleting) (by rintro a _ ⟨_, _, _, _, rfl⟩; rfl) hr
        have h6 := congrArg (fun x : List Bool => (x.filter fun b => !b).length) this
        simpa [List.filter_map, Function.comp_def] using h6
      unfold mu
      rw [h3, h4, h5]

theorem runs_mu {d : FDep} (hd : Settled d) {n : Nat} {l l' : List FSet} (hr : Runs d n l l') {c : FSet} (h : At d l c) :
    ∃ c', At d l' c' ∧ c'.set.name = c.set.name ∧ n + mu d l' c' ≤ mu d l c := by
  induction hr with
  | start l => exact ⟨c, h, rfl, by omega⟩
  | run e _ he ih =>
    obtain ⟨c', h1, hn, h2⟩ := ih h
    rcases (reconcile_at hd h1 he).2 with ⟨h3, _⟩ | ⟨c'', h3, h4, h5⟩
    · rw [if_pos h3, h3]; exact ⟨c', h1, hn, h2⟩
    · refine ⟨c'', h3, h4.trans hn, ?_⟩
      split <;> omega
  | report _ hrep ih =>
    obtain ⟨c', h1, hn, h2⟩ := ih h
    obtain ⟨c'', h3, h4, h5⟩ := at_report h1 hrep
    exact ⟨c'', h3, h4.trans hn, by omega⟩
  | gone f _ hf hdel ih =>
    obtain ⟨c', h1, hn, h2⟩ := ih h
    obtain ⟨h3, h4⟩ := at_gone h1 hf hdel
    exact ⟨c', h3, hn, by unfold Dispatch.others at h4; omega⟩

/-! ### Deployments -/

/-- C133: Once the set of the template has the size of the deployment and all others have size zero, this stays so, the deployment is left alone, and of all further
runs of the deployment controller at most one more change the sets than there are sets that are not being deleted: one for the set's metadata, one for its replica
annotations, and one for each old set that is deleted. -/
theorem C133_deployment {d : FDep} (hd : Settled d) {n : Nat} {l l' : List FSet} {c : FSet} (h : At d l c) (hr : Runs d n l l') :
    (∃ c', At d l' c' ∧ c'.set.name = c.set.name) ∧ (∀ e, Sorts e → (reconcile d e l').dep = d) ∧ n ≤ 1 + (l.filter fun f => !f.deleting).length := by
  obtain ⟨c', h1, hn, h2⟩ := runs_mu hd hr h
  refine ⟨⟨c', h1, hn⟩, fun e he => (reconcile_at hd h1 he).1, ?_⟩
  have hm : c' ∈ l' := List.mem_of_find?_eq_some h1.cur
  have hpos : 0 < unmarked l' := List.countP_pos_iff.2 ⟨c', hm, by rw [h1.alive]; rfl⟩
  have h3 : mu d l c ≤ 2 + unmarked l := by
    unfold mu
    have h4 : (toWrite d l c).toNat ≤ 1 := Bool.toNat_le _
    have h5 : (stale d c).toNat ≤ 1 := Bool.toNat_le _
    omega
  have h4 : unmarked l' ≤ mu d l' c' := by unfold mu; omega
  have h5 : unmarked l = (l.filter fun f => !f.deleting).length := List.countP_eq_length_filter
  omega

/-- a finished rollout with two old sets; the set's annotations still are those of an earlier size, its revision is missing -/
def exDep : FDep := { spec := { replicas := 4, maxSurge := some (.int 1), maxUnavailable := some (.int 1) }, template := { body := "3" }, limit := some 1 }
def exSets : List FSet := [
  { set := { name := "a", spec := 0, desired := some "4", maxR := some "5" }, tmpl := { body := "1" }, annotations := [(Revision.revKey, "1")] },
  { set := { name := "b", spec := 0, desired := some "4", maxR := some "5", creation := 1 }, tmpl := { body := "2" }, annotations := [(Revision.revKey, "2")] },
  { set := { name := "c", spec := 4, desired := some "3", maxR := some "4", creation := 2, avail := 4 }, tmpl := { body := "3" }, status := 4 }]

example : ∃ c, At exDep exSets c := by
  refine ⟨exSets[2], by unfold Dispatch.Unique; decide, by decide +kernel, rfl, rfl, by decide, ?_⟩
  intro f hf hne v hv
  have : ∀ f ∈ exSets, f.set.name ≠ exSets[2].set.name → Revision.revision f.annotations = some 1 ∨ Revision.revision f.annotations = some 2 := by decide +kernel
  rcases this f hf hne with h | h <;> rw [h] at hv <;> cases hv <;> decide

/-- three runs change something: the metadata, the replica annotations, the oldest set; the fourth does not -/
example : let r := fun l => (reconcile exDep { cleanupReached := true } l).sets
    ([r exSets, r (r exSets), r (r (r exSets)), r (r (r (r exSets)))].map fun l => l.map fun f => (f.set.name, f.set.desired, Revision.revision f.annotations, f.deleting)) =
      [[("a", some "4", some 1, false), ("b", some "4", some 2, false), ("c", some "3", some 3, false)],
       [("a", some "4", some 1, false), ("b", some "4", some 2, false), ("c", some "4", some 3, false)],
       [("a", some "4", some 1, true), ("b", some "4", some 2, false), ("c", some "4", some 3, false)],
       [("a", some "4", some 1, true), ("b", some "4", some 2, false), ("c", some "4", some 3, false)]] := by decide +kernel

end MCM.Rest
