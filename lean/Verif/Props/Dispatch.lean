import Verif.Model.Dispatch
import Verif.Props.Scale
import Verif.Props.Recreate
import Verif.Props.Template
import Mathlib.Data.List.Forall2
/-!
# C74 – pausing a deployment;  C75 – when a machine set is created;  C76 – a deployment that is being deleted
-/
namespace MCM.Dispatch
open MCM MCM.Template MCM.Rolling

/-! ## Independent specification -/

/-- the set is still there and would create the same machines, apart from the fields that are meant to be changed in place -/
def Kept (a b : FSet) : Prop :=
  b.set.name = a.set.name ∧ b.tmpl.labels = a.tmpl.labels ∧ b.tmpl.body = a.tmpl.body

/-- names are unique -/
def Unique (l : List FSet) : Prop := (l.map (·.set.name)).Nodup

/-- number of machines the sets ask for -/
def wanted (l : List FSet) : Int := (l.map (·.set.spec)).sum

/-- the size of a set in a list, by name -/
def SizeIs (l : List FSet) (name : String) (n : Int) : Prop := ∃ f ∈ l, f.set.name = name ∧ f.set.spec = n

/-- the run gets through: everything valid, every call succeeds -/
structure Env.Smooth (e : Env) : Prop where
  valid : e.valid = true
  list : e.listOk = true
  pre : e.preOk = true
  set : e.setOk = true
  dep : e.depOk = true
  sorts : e.scale.Sorts
  calls : e.scale.AllOk

/-! ## Lemmas -/

theorem unique_eq (l : List FSet) (h : Unique l) (a b : FSet) (ha : a ∈ l) (hb : b ∈ l) (hn : a.set.name = b.set.name) : a = b := by
  induction l with
  | nil => simp at ha
  | cons x l ih =>
    unfold Unique at h
    simp only [List.map_cons, List.nodup_cons] at h
    rcases List.mem_cons.1 ha with rfl | ha1
    · rcases List.mem_cons.1 hb with rfl | hb1
      · rfl
      · exact absurd (List.mem_map.2 ⟨b, hb1, hn.symm⟩) h.1
    · rcases List.mem_cons.1 hb with rfl | hb1
      · exact absurd (List.mem_map.2 ⟨a, ha1, hn⟩) h.1
      · exact ih h.2 ha1 hb1

/-- as `Kept`, and the size and all status fields are untouched too -/
def Same (a b : FSet) : Prop := Kept a b ∧ b.set = a.set ∧ b.status = a.status ∧ b.deleting = a.deleting

theorem same_refl (a : FSet) : Same a a := ⟨⟨rfl, rfl, rfl⟩, rfl, rfl, rfl⟩

theorem forall2_refl {R : FSet → FSet → Prop} (hR : ∀ a, R a a) (l : List FSet) : List.Forall₂ R l l := by
  induction l with
  | nil => exact List.Forall₂.nil
  | cons a l ih => exact List.Forall₂.cons (hR a) ih

theorem forall2_map {R : FSet → FSet → Prop} (g : FSet → FSet) (l : List FSet) (h : ∀ a ∈ l, R a (g a)) : List.Forall₂ R l (l.map g) := by
  induction l with
  | nil => exact List.Forall₂.nil
  | cons a l ih => exact List.Forall₂.cons (h a (by simp)) (ih fun x hx => h x (by simp [hx]))

theorem forall2_trans {R S T : FSet → FSet → Prop} (h : ∀ a b c, R a b → S b c → T a c) {a b c : List FSet} (h1 : List.Forall₂ R a b) (h2 : List.Forall₂ S b c) :
    List.Forall₂ T a c := by
  induction h1 generalizing c with
  | nil => cases h2; exact List.Forall₂.nil
  | cons hr _ ih => cases h2 with | cons hs ht => exact List.Forall₂.cons (h _ _ _ hr hs) (ih ht)

theorem kept_trans (a b c : FSet) (h1 : Kept a b) (h2 : Kept b c) : Kept a c :=
  ⟨h2.1.trans h1.1, h2.2.1.trans h1.2.1, h2.2.2.trans h1.2.2⟩

theorem forall2_set {a b : List FSet} (h : List.Forall₂ Same a b) : b.map (·.set) = a.map (·.set) := by
  induction h with
  | nil => rfl
  | cons hr _ ih => simp [hr.2.1, ih]

theorem syncCurrent_same (d e) (sets : List FSet) (hu : Unique sets) (n : FSet) (hn : n ∈ sets) :
    List.Forall₂ Same sets (syncCurrent d e sets n).sets
    ∧ ((syncCurrent d e sets n).err = false → (syncCurrent d e sets n).new = some n.set.name) := by
  unfold syncCurrent
  dsimp only
  split
  · split
    · refine ⟨forall2_map _ _ ?_, fun _ => rfl⟩
      intro a ha
      by_cases h : a.set.name == n.set.name
      · have : a = n := unique_eq sets hu a n ha hn (by simpa using h)
        subst this
        simp [Same, Kept, inPlace]
      · simp [h, same_refl]
    · exact ⟨forall2_refl same_refl _, by simp⟩
  · split
    · exact ⟨forall2_refl same_refl _, fun _ => rfl⟩
    · exact ⟨forall2_refl same_refl _, by simp⟩

/-- looking for the current set without creating it changes nothing but the in-place fields -/
theorem getNew_same (d e) (sets : List FSet) (hu : Unique sets) :
    List.Forall₂ Same sets (getNew d e false sets).sets := by
  unfold getNew
  split
  · rename_i n hn; exact (syncCurrent_same d e sets hu n (List.mem_of_find?_eq_some hn)).1
  · exact forall2_refl same_refl _

theorem resize_kept (l : List FSet) (r : List Scale.MSet) : List.Forall₂ Kept l (resize l r) := by
  refine forall2_map _ _ ?_
  intro a _
  split
  · rename_i s hs
    have := List.find?_some hs
    exact ⟨by simpa using this, rfl, rfl⟩
  · exact ⟨rfl, rfl, rfl⟩

theorem cleanup_kept (d e old) (l : List FSet) : List.Forall₂ Kept l (cleanup d e old l) := by
  refine forall2_map _ _ ?_
  intro a _
  split <;> exact ⟨rfl, rfl, rfl⟩

theorem pausedCleanup_kept (d e old) (l : List FSet) : List.Forall₂ Kept l (pausedCleanup d e old l) := by
  unfold pausedCleanup
  split
  · exact cleanup_kept d e old l
  · exact forall2_refl (fun a => ⟨rfl, rfl, rfl⟩) _

theorem sync_kept (d e) (sets : List FSet) (hu : Unique sets) : List.Forall₂ Kept sets (sync d e sets) := by
  have h1 : List.Forall₂ Kept sets (getNew d e false sets).sets := (getNew_same d e sets hu).imp fun _ _ h => h.1
  unfold sync
  dsimp only
  split
  · exact h1
  · split
    · exact forall2_trans kept_trans h1 (resize_kept _ _)
    · exact forall2_trans kept_trans (forall2_trans kept_trans h1 (resize_kept _ _)) (pausedCleanup_kept _ _ _ _)

/-! ## C74 -/

/-- **C74** (partial): while a deployment is paused, no run creates or removes a machine set or gives a set another template, and the deployment itself –
its template and a pending rollback – stays as it is; whatever fails. -/
theorem C74_paused_keeps_sets_partial (d : FDep) (e : Env) (sets : List FSet) (hu : Unique sets) (hp : d.paused = true) (hd : d.deleting = false) :
    (reconcile d e sets).dep = d ∧ List.Forall₂ Kept sets (reconcile d e sets).sets := by
  have hr : List.Forall₂ Kept sets sets := forall2_refl (fun a => ⟨rfl, rfl, rfl⟩) _
  unfold reconcile
  simp only [hd, hp, if_true, Bool.false_eq_true, if_false]
  split
  · exact ⟨rfl, hr⟩
  split
  · exact ⟨rfl, hr⟩
  split
  · exact ⟨rfl, hr⟩
  split
  · exact ⟨rfl, hr⟩
  · exact ⟨rfl, sync_kept d e sets hu⟩

/-! ### sizes while paused -/

theorem filter_find_perm (l : List Scale.MSet) (hu : (l.map (·.name)).Nodup) (n : String) :
    ((l.filter fun s => !(s.name == n)) ++ (l.find? fun s => s.name == n).toList).Perm l := by
  induction l with
  | nil => simp
  | cons x l ih =>
    simp only [List.map_cons, List.nodup_cons] at hu
    by_cases h : x.name = n
    · subst h
      have : l.filter (fun s => !(s.name == x.name)) = l := by
        rw [List.filter_eq_self]
        intro a ha
        have : a.name ≠ x.name := fun h => hu.1 (List.mem_map.2 ⟨a, ha, h⟩)
        simpa using this
      simp [this]
    · have h2 : (x.name == n) = false := by simpa using h
      simp only [List.filter_cons, h2, Bool.not_false, if_true, List.find?_cons, List.cons_append]
      exact (ih hu.2).cons x

theorem others_set (l : List FSet) (n : String) : (others l n).map (·.set) = (l.map (·.set)).filter fun s => !(s.name == n) := by
  unfold others
  induction l with
  | nil => rfl
  | cons x l ih => by_cases h : x.set.name == n <;> simp [h] at ih ⊢ <;> exact ih

theorem find_set (l : List FSet) (n : String) : (l.find? fun f => f.set.name == n).map (·.set) = (l.map (·.set)).find? fun s => s.name == n := by
  induction l with
  | nil => rfl
  | cons x l ih => by_cases h : x.set.name == n <;> simp [h] at ih ⊢; try exact ih

theorem unique_set (l : List FSet) : Unique l ↔ ((l.map (·.set)).map (·.name)).Nodup := by simp [Unique, Function.comp_def]

/-- what `sync` hands over to `scale` is all sets -/
theorem split_all (g : Got) (hu : Unique g.sets) :
    ((oldSets g).map (·.set) ++ ((curSet g).map (·.set)).toList).Perm (g.sets.map (·.set)) := by
  unfold oldSets curSet
  cases g.new with
  | none => simp
  | some n =>
    simp only
    rw [others_set, find_set]
    exact filter_find_perm _ ((unique_set _).1 hu) n

theorem resize_mem (l : List FSet) (r : List Scale.MSet) (hr : (r.map (·.name)).Nodup) (f : FSet) (hf : f ∈ l) (s : Scale.MSet) (hs : s ∈ r) (hn : s.name = f.set.name) :
    ∃ f' ∈ resize l r, f'.set = s := by
  have : r.find? (fun s => s.name == f.set.name) = some s := by
    cases h : r.find? (fun s => s.name == f.set.name) with
    | none => exact absurd (List.find?_eq_none.1 h s hs) (by simp [hn])
    | some x =>
      have hx := List.find?_some h
      rw [Recreate.find_name r s hs hr x (List.mem_of_find?_eq_some h) ((by simpa using hx : x.name = f.set.name).trans hn.symm)]
  refine ⟨{ f with set := s }, ?_, rfl⟩
  unfold resize
  rw [List.mem_map]
  exact ⟨f, hf, by rw [this]⟩

theorem cleanup_size (d e old) (l : List FSet) (f : FSet) (hf : f ∈ l) : ∃ f' ∈ pausedCleanup d e old l, f'.set = f.set := by
  unfold pausedCleanup
  split
  · unfold cleanup
    dsimp only
    refine ⟨_, List.mem_map.2 ⟨f, hf, rfl⟩, ?_⟩
    split <;> rfl
  · exact ⟨f, hf, rfl⟩

/-- a smooth run of a paused deployment is exactly one call of `scale` on all its sets -/
theorem paused_eq (d : FDep) (e : Env) (hs : e.Smooth) (sets : List FSet) (hp : d.paused = true) (hd : d.deleting = false)
    (ha : d.selectsAll = false) :
    (reconcile d e sets).sets = sync d e sets ∧ (getNew d e false sets).err = false := by
  unfold reconcile
  simp only [hs.valid, ha, hs.list, hd, hs.pre, hp, Bool.not_true, Bool.false_eq_true, if_false, if_true, true_and]
  unfold getNew
  split
  · unfold syncCurrent; simp only [hs.set, hs.dep, if_true]; split <;> rfl
  · rfl

/-- sizes after a smooth run: whatever `scale` computed -/
theorem paused_sizes (d : FDep) (e : Env) (hs : e.Smooth) (sets : List FSet) (hu : Unique sets) (hp : d.paused = true) (hd : d.deleting = false)
    (ha : d.selectsAll = false) (old : List Scale.MSet) (new : Option Scale.MSet)
    (ho : old = (oldSets (getNew d e false sets)).map (·.set)) (hne : new = (curSet (getNew d e false sets)).map (·.set))
    (hnames : ((Scale.scale d.spec e.scale old new).1.map (·.name)).Nodup)
    (f : FSet) (hf : f ∈ sets) (s : Scale.MSet) (hsm : s ∈ (Scale.scale d.spec e.scale old new).1) (hn : s.name = f.set.name) :
    ∃ f' ∈ (reconcile d e sets).sets, f'.set = s := by
  obtain ⟨h1, h2⟩ := paused_eq d e hs sets hp hd ha
  rw [h1]
  subst ho hne
  have hg := forall2_set (getNew_same d e sets hu)
  have hfm : f.set ∈ (getNew d e false sets).sets.map (·.set) := by rw [hg]; exact List.mem_map.2 ⟨f, hf, rfl⟩
  obtain ⟨f1, hf1, he⟩ := List.mem_map.1 hfm
  obtain ⟨f2, hf2, he2⟩ := resize_mem (getNew d e false sets).sets _ hnames f1 hf1 s hsm (by rw [hn, ← he])
  unfold sync
  dsimp only
  rw [h2]
  simp only [Bool.false_eq_true, if_false]
  split
  · exact ⟨f2, hf2, he2⟩
  · obtain ⟨f3, hf3, he3⟩ := cleanup_size d e (oldSets (getNew d e false sets)) _ f2 hf2
    exact ⟨f3, hf3, he3.trans he2⟩

theorem getNew_unique (d e) (sets : List FSet) (hu : Unique sets) : Unique (getNew d e false sets).sets := by
  rw [unique_set, forall2_set (getNew_same d e sets hu), ← unique_set]; exact hu

theorem replaceSet_names (l : List Scale.MSet) (s : Scale.MSet) : (Scale.replaceSet l s).map (·.name) = l.map (·.name) := by
  unfold Scale.replaceSet
  rw [List.map_map]
  apply List.map_congr_left
  intro x _
  by_cases h : x.name = s.name <;> simp [h]

theorem active_single (sets : List FSet) (hu : Unique sets) (f0 : FSet) (hf0 : f0 ∈ sets) (hpos : 0 < f0.set.spec) (hz : ∀ f ∈ sets, f ≠ f0 → f.set.spec = 0) :
    Scale.active (sets.map (·.set)) = [f0.set] := by
  unfold Scale.active
  induction sets with
  | nil => simp at hf0
  | cons x l ih =>
    have hu' : Unique l := (List.nodup_cons.1 hu).2
    rcases List.mem_cons.1 hf0 with rfl | hf0
    · have : ∀ y ∈ l, y ≠ f0 := by
        rintro y hy rfl
        exact (List.nodup_cons.1 hu).1 (List.mem_map.2 ⟨y, hy, rfl⟩)
      have hnil : (l.map (·.set)).filter (fun s => decide (s.spec > 0)) = [] := by
        rw [List.filter_eq_nil_iff]
        intro s hsm
        obtain ⟨y, hy, rfl⟩ := List.mem_map.1 hsm
        simp [hz y (by simp [hy]) (this y hy)]
      simp only [List.map_cons, List.filter_cons, hnil]
      simp [hpos]
    · have hxne : x ≠ f0 := by
        rintro rfl
        exact (List.nodup_cons.1 hu).1 (List.mem_map.2 ⟨x, hf0, rfl⟩)
      have := hz x (by simp) hxne
      simp only [List.map_cons, List.filter_cons, this]
      simp only [gt_iff_lt, Int.lt_irrefl, decide_false, Bool.false_eq_true, if_false]
      exact ih hu' hf0 (fun f hf => hz f (by simp [hf]))

/-- **C74** (partial): pausing outside of a rollout. If only one machine set has machines, a run of the paused deployment that gets through scales exactly that set, to the
size the user asks for. -/
theorem C74_paused_scales_partial (d : FDep) (e : Env) (hs : e.Smooth) (sets : List FSet) (hu : Unique sets) (hp : d.paused = true) (hd : d.deleting = false)
    (ha : d.selectsAll = false) (f0 : FSet) (hf0 : f0 ∈ sets) (hpos : 0 < f0.set.spec) (hz : ∀ f ∈ sets, f ≠ f0 → f.set.spec = 0) :
    SizeIs (reconcile d e sets).sets f0.set.name d.spec.replicas
    ∧ ∀ f ∈ sets, f ≠ f0 → SizeIs (reconcile d e sets).sets f.set.name f.set.spec := by
  generalize ho : (oldSets (getNew d e false sets)).map (·.set) = old
  generalize hne : (curSet (getNew d e false sets)).map (·.set) = new
  have hperm : (old ++ new.toList).Perm (sets.map (·.set)) := by
    rw [← ho, ← hne]
    have := split_all (getNew d e false sets) (getNew_unique d e sets hu)
    rw [forall2_set (getNew_same d e sets hu)] at this
    exact this
  have hact := active_single sets hu f0 hf0 hpos hz
  have hfind : Scale.findActiveOrLatest e.scale old new = some f0.set := by
    have hl : Scale.active (e.scale.srtNewest old ++ new.toList) = [f0.set] := by
      have h1 : (Scale.active (e.scale.srtNewest old ++ new.toList)).Perm (Scale.active (sets.map (·.set))) :=
        (((hs.sorts.1 old).append_right _).trans hperm).filter _
      rw [hact] at h1
      exact List.perm_singleton.1 h1
    unfold Scale.findActiveOrLatest
    rw [hl]
  have hsc : (Scale.scale d.spec e.scale old new).1 = Scale.replaceSet (old ++ new.toList)
      (if f0.set.spec = d.spec.replicas then Scale.scaleSet d.spec (e.scale.ok f0.set) f0.set d.spec.replicas
        else Scale.scaleSetEv d.spec (e.scale.ok f0.set) f0.set d.spec.replicas).1 := by
    unfold Scale.scale
    rw [hfind]
  have hnm : ((Scale.scale d.spec e.scale old new).1.map (·.name)).Nodup := by
    rw [hsc, replaceSet_names]
    exact (hperm.map _).nodup_iff.2 ((unique_set _).1 hu)
  generalize hs0 : (if f0.set.spec = d.spec.replicas then Scale.scaleSet d.spec (e.scale.ok f0.set) f0.set d.spec.replicas
        else Scale.scaleSetEv d.spec (e.scale.ok f0.set) f0.set d.spec.replicas).1 = s0 at hsc
  have hs0' : s0.name = f0.set.name ∧ s0.spec = d.spec.replicas := by
    rw [← hs0]
    split
    · rename_i h
      refine ⟨Scale.scaleSet_name _ _ _ _, ?_⟩
      rw [hs.calls]; exact (Scale.scaleSet_ok _ _ _).1
    · rename_i h
      refine ⟨Recreate.scaleSetEv_name _ _ _ _, ?_⟩
      unfold Scale.scaleSetEv
      rw [if_neg h, hs.calls]; exact (Scale.scaleSet_ok _ _ _).1
  have hmem : ∀ f ∈ sets, f.set ∈ old ++ new.toList := fun f hf => hperm.mem_iff.2 (List.mem_map.2 ⟨f, hf, rfl⟩)
  refine ⟨?_, ?_⟩
  · obtain ⟨f', hf', he⟩ := paused_sizes d e hs sets hu hp hd ha old new ho.symm hne.symm hnm f0 hf0 s0
      (by rw [hsc]; unfold Scale.replaceSet; exact List.mem_map.2 ⟨f0.set, hmem f0 hf0, by simp [hs0'.1]⟩) hs0'.1
    exact ⟨f', hf', by rw [he, hs0'.1], by rw [he, hs0'.2]⟩
  · intro f hf hfne
    have hne' : f.set.name ≠ f0.set.name := fun h => hfne (unique_eq sets hu f f0 hf hf0 h)
    obtain ⟨f', hf', he⟩ := paused_sizes d e hs sets hu hp hd ha old new ho.symm hne.symm hnm f hf f.set
      (by rw [hsc]; unfold Scale.replaceSet; exact List.mem_map.2 ⟨f.set, hmem f hf, by simp [hs0'.1, hne']⟩) rfl
    exact ⟨f', hf', by rw [he], by rw [he]⟩

theorem writeAll_mem (d : Dep) (ok : Scale.MSet → Bool) (hok : ∀ s, ok s = true) (l : List (Scale.MSet × Int)) (x : Scale.MSet × Int) (hx : x ∈ l) :
    ∃ s' ∈ (Scale.writeAll d ok l).1, s'.name = x.1.name ∧ s'.spec = x.2 := by
  induction l with
  | nil => simp at hx
  | cons y rest ih =>
    obtain ⟨s, n⟩ := y
    unfold Scale.writeAll
    dsimp only
    have h1 := Scale.scaleSet_ok d s n
    rw [hok s, h1.2.1]
    simp only [Bool.false_eq_true, if_false]
    rcases List.mem_cons.1 hx with rfl | hx
    · exact ⟨_, List.mem_cons_self .., Scale.scaleSet_name _ _ _ _, h1.1⟩
    · obtain ⟨s', h2, h3⟩ := ih hx
      exact ⟨s', List.mem_cons_of_mem _ h2, h3⟩

/-- sizes after scaling out with an active new set -/
theorem scale_out_mem (d : Dep) (hd : d.strategy = .rolling) (env : Scale.Env) (hs : env.Sorts) (hok : env.AllOk)
    (old : List Scale.MSet) (n : Scale.MSet) (hnn : ∀ s ∈ old ++ [n], 0 ≤ s.spec) (hnames : ((old ++ [n]).map (·.name)).Nodup)
    (hact : Scale.SeveralActive (old ++ [n])) (hsat : Scale.isSaturated d (some n) = false)
    (hup : Scale.total (old ++ [n]) ≤ Scale.allowedSize d) (hn : 0 < n.spec) (s : Scale.MSet) (hsm : s ∈ old ++ [n]) :
    ∃ s' ∈ (Scale.scale d env old (some n)).1, s'.name = s.name
      ∧ s'.spec = if s.name = n.name then s.spec + (Scale.allowedSize d - Scale.total (old ++ [n])) else s.spec := by
  obtain ⟨hat, _⟩ := Scale.active_total _ hnn
  have hall : old ++ (some n).toList = old ++ [n] := rfl
  have e : (Scale.scale d env old (some n)).1 = (((old ++ [n]).filter fun s => !(s.spec > 0)) ++
      (Scale.writeAll d env.ok (Scale.upSizes (some n.name) (Scale.allowedSize d - Scale.total (Scale.active (old ++ [n]))) (Scale.active (old ++ [n])))).1) := by
    unfold Scale.scale
    simp only [Scale.find_none env hs old (some n) hact, hsat, Bool.false_eq_true, if_false, hd, if_true, hall, Option.map_some]
    rw [if_pos (by omega)]
    rw [Scale.addLeftover_same]
    intro x hx
    simp only [Scale.upSizes, List.mem_map] at hx
    obtain ⟨s, hs1, rfl⟩ := hx
    have := hnn s (List.mem_filter.1 hs1).1
    simp only; split <;> omega
  rw [e]
  by_cases hp : s.spec > 0
  · obtain ⟨s', h1, h2, h3⟩ := writeAll_mem d env.ok hok (Scale.upSizes (some n.name) (Scale.allowedSize d - Scale.total (Scale.active (old ++ [n]))) (Scale.active (old ++ [n])))
      (s, if some s.name = some n.name then s.spec + (Scale.allowedSize d - Scale.total (Scale.active (old ++ [n]))) else s.spec)
      (List.mem_map.2 ⟨s, List.mem_filter.2 ⟨hsm, by simpa using hp⟩, rfl⟩)
    refine ⟨s', List.mem_append_right _ h1, h2, ?_⟩
    rw [h3, hat]
    simp
  · refine ⟨s, List.mem_append_left _ (List.mem_filter.2 ⟨hsm, by simp at hp ⊢; exact hp⟩), rfl, ?_⟩
    split
    · rename_i h
      have : s = n := Recreate.find_name (old ++ [n]) n (by simp) hnames s hsm h
      subst this
      exact absurd hn hp
    · rfl

theorem find_unique (sets : List FSet) (t : Tmpl) (n : FSet) (hn : n ∈ sets) (hm : equalIgnoreHash n.tmpl t = true)
    (ho : ∀ f ∈ sets, f ≠ n → equalIgnoreHash f.tmpl t = false) : (sets.find? fun f => equalIgnoreHash f.tmpl t) = some n := by
  cases h : sets.find? fun f => equalIgnoreHash f.tmpl t with
  | none => exact absurd (List.find?_eq_none.1 h n hn) (by simp [hm])
  | some x =>
    by_cases hx : x = n
    · rw [hx]
    · have h1 := ho x (List.mem_of_find?_eq_some h) hx
      have h2 := List.find?_some h
      rw [h1] at h2; exact absurd h2 (by simp)

/-- Pausing in the middle of a rolling update. `n` is the set of the current template; it has machines but not yet all of them, another set has machines too, and together
they are not above the allowed size. A smooth run of the *paused* deployment adds all machines that still fit under `replicas + maxSurge` to `n`. -/
theorem paused_rollout_tops_up (d : FDep) (e : Env) (hs : e.Smooth) (sets : List FSet) (hu : Unique sets) (hp : d.paused = true) (hd : d.deleting = false)
    (ha : d.selectsAll = false) (hst : d.spec.strategy = .rolling) (n : FSet) (hn : n ∈ sets) (hm : equalIgnoreHash n.tmpl d.template = true)
    (ho : ∀ f ∈ sets, f ≠ n → equalIgnoreHash f.tmpl d.template = false) (hnn : ∀ f ∈ sets, 0 ≤ f.set.spec)
    (hpos : 0 < n.set.spec) (hshort : n.set.spec ≠ d.spec.replicas) (hother : ∃ f ∈ sets, f ≠ n ∧ 0 < f.set.spec)
    (hfit : wanted sets ≤ Scale.Allowed d.spec) :
    SizeIs (reconcile d e sets).sets n.set.name (n.set.spec + (Scale.Allowed d.spec - wanted sets))
    ∧ ∀ f ∈ sets, f ≠ n → SizeIs (reconcile d e sets).sets f.set.name f.set.spec := by
  simp only [Scale.allowed_eq] at *
  have hfind := find_unique sets d.template n hn hm ho
  have hnew : (getNew d e false sets).new = some n.set.name := by
    unfold getNew
    rw [hfind]
    refine (syncCurrent_same d e sets hu n hn).2 ?_
    unfold syncCurrent; simp only [hs.set, hs.dep, if_true]; split <;> rfl
  have hgs := forall2_set (getNew_same d e sets hu)
  generalize hold : (oldSets (getNew d e false sets)).map (·.set) = old
  have hcur : (curSet (getNew d e false sets)).map (·.set) = some n.set := by
    unfold curSet
    rw [hnew]
    simp only
    rw [find_set, hgs, ← find_set]
    have : (sets.find? fun f => f.set.name == n.set.name) = some n := by
      cases h : sets.find? fun f => f.set.name == n.set.name with
      | none => exact absurd (List.find?_eq_none.1 h n hn) (by simp)
      | some x =>
        have hx := List.find?_some h
        rw [unique_eq sets hu x n (List.mem_of_find?_eq_some h) hn (by simpa using hx)]
    rw [this]; rfl
  have hperm : (old ++ [n.set]).Perm (sets.map (·.set)) := by
    have := split_all (getNew d e false sets) (getNew_unique d e sets hu)
    rw [hgs, hold, hcur] at this
    exact this
  have htot : Scale.total (old ++ [n.set]) = wanted sets := by
    rw [Scale.total_perm hperm]; unfold Scale.total wanted; rw [List.map_map]; rfl
  have hnames : ((old ++ [n.set]).map (·.name)).Nodup := (hperm.map _).nodup_iff.2 ((unique_set _).1 hu)
  have hmem : ∀ f ∈ sets, f.set ∈ old ++ [n.set] := fun f hf => hperm.mem_iff.2 (List.mem_map.2 ⟨f, hf, rfl⟩)
  have hsev : Scale.SeveralActive (old ++ [n.set]) := by
    obtain ⟨f, hf, hfn, hfp⟩ := hother
    have hfo : f.set ∈ old := by
      rcases List.mem_append.1 (hmem f hf) with h | h
      · exact h
      · have h' : f.set = n.set := by simpa using h
        exact absurd (unique_eq sets hu f n hf hn (by rw [h'])) hfn
    unfold Scale.SeveralActive
    rw [List.filter_append, List.length_append]
    have h1 : 0 < (old.filter fun s => decide (s.spec > 0)).length := List.length_pos_of_mem (List.mem_filter.2 ⟨hfo, by simpa using hfp⟩)
    have h2 : ([n.set].filter fun s => decide (s.spec > 0)).length = 1 := by simp [hpos]
    omega
  have hsat : Scale.isSaturated d.spec (some n.set) = false := by
    unfold Scale.isSaturated
    dsimp only
    split
    · rfl
    · simp [hshort]
  have hnn' : ∀ s ∈ old ++ [n.set], 0 ≤ s.spec := by
    intro s hsm
    obtain ⟨f, hf, rfl⟩ := List.mem_map.1 (hperm.mem_iff.1 hsm)
    exact hnn f hf
  have hrn : ((Scale.scale d.spec e.scale old (some n.set)).1.map (·.name)).Nodup :=
    ((Scale.C13_scale_out_partial d.spec hst e.scale hs.sorts old n.set hnn' hnames hsev hsat hpos (by rw [htot]; exact hfit)).1.nodup_iff).2 hnames
  have key : ∀ f ∈ sets, SizeIs (reconcile d e sets).sets f.set.name
      (if f.set.name = n.set.name then f.set.spec + (Scale.allowedSize d.spec - wanted sets) else f.set.spec) := by
    intro f hf
    obtain ⟨s', h1, h2, h3⟩ := scale_out_mem d.spec hst e.scale hs.sorts hs.calls old n.set hnn' hnames hsev hsat (by rw [htot]; exact hfit) hpos f.set (hmem f hf)
    obtain ⟨f', hf', he⟩ := paused_sizes d e hs sets hu hp hd ha old (some n.set) hold.symm hcur.symm hrn f hf s' h1 h2
    exact ⟨f', hf', by rw [he, h2], by rw [he, h3, htot]⟩
  refine ⟨by simpa using key n hn, ?_⟩
  intro f hf hfn
  have : f.set.name ≠ n.set.name := fun h => hfn (unique_eq sets hu f n hf hn h)
  simpa [this] using key f hf

/-! ### where the full statement fails -/

private def dep3 : FDep :=
  { spec := { replicas := 3, maxSurge := some (.int 1), maxUnavailable := some (.int 0) }, template := { body := "v2" }, paused := true }
private def v1 (n avail : Int) : FSet := { set := { name := "w-v1", spec := n, avail := avail, desired := some "3", maxR := some "4" }, tmpl := { body := "v1" } }
private def v2 (n avail : Int) : FSet :=
  { set := { name := "w-v2", spec := n, avail := avail, desired := some "3", maxR := some "4", creation := 1 }, tmpl := { body := "v2" }
    annotations := [("deployment.kubernetes.io/revision", "1")] }

private def sizes (l : List FSet) : List (String × Int) := l.map fun f => (f.set.name, f.set.spec)

/-- The user pauses a rolling update because the new template looks bad (1 new machine, 2 old ones). The paused controller creates another machine of the new template. -/
theorem C74_pausing_creates_machines_false :
    sizes (reconcile dep3 {} [v1 2 2, v2 1 0]).sets = [("w-v1", 2), ("w-v2", 2)] := by decide +kernel

/-- Pausing when all new machines are there but an old one is still wanted: the old machine is removed although the deployment is paused. -/
theorem C74_pausing_deletes_machines_false :
    sizes (reconcile dep3 {} [v1 1 1, v2 3 3]).sets = [("w-v1", 0), ("w-v2", 3)] := by decide +kernel

/-- While paused, changes to the node template (and to the machine configuration and the class kind) still reach the current set, which hands them on to its machines. -/
theorem C74_pausing_propagates_in_place_false :
    (reconcile { dep3 with template := { body := "v2", nodeTemplate := "new" } } {} [v2 3 3]).sets.map (·.tmpl.nodeTemplate) = ["new"] := by decide +kernel

-- no rollout in progress: the paused deployment is scaled from 3 to 5
example : sizes (reconcile { dep3 with spec := { dep3.spec with replicas := 5 } } {} [v1 0 0, v2 3 3]).sets = [("w-v1", 0), ("w-v2", 5)] := by decide +kernel
-- a new template is not rolled out while paused, but is once resumed
example : sizes (reconcile { dep3 with template := { body := "v3" } } { fresh := "w-v3" } [v2 3 3]).sets = [("w-v2", 3)] := by decide +kernel
example : (reconcile { dep3 with template := { body := "v3" }, paused := false } { fresh := "w-v3" } [{ v2 3 3 with status := 3 }]).sets.length = 2 := by
  decide +kernel
-- a rollback request waits
example : (reconcile { dep3 with rollbackTo := some 1 } {} [v2 3 3]).dep.rollbackTo = some 1 := by decide +kernel

/-! ## C75 -/

theorem kept_refl_list (l : List FSet) : List.Forall₂ Kept l l := forall2_refl (fun _ => ⟨rfl, rfl, rfl⟩) l

/-- what one run may do to the collection of sets: nothing, or add `x`, and then only if no set has the template yet -/
def AddsAtMostOne (d : FDep) (e : Env) (sets after : List FSet) : Prop :=
  List.Forall₂ Kept sets after
  ∨ ((∀ f ∈ sets, equalIgnoreHash f.tmpl d.template = false)
      ∧ ∃ x, ((SameTemplate x.tmpl d.template ∧ x.set.name = e.fresh ∧ x.tmpl.labels = d.template.labels.set hashKey e.hash
          ∧ (e.created = .done ∨ e.created = .doneThenError)) ∨ e.created = .existing x)
        ∧ List.Forall₂ Kept (sets ++ [x]) after)

theorem adds_kept {d e} {sets a b : List FSet} (h : AddsAtMostOne d e sets a) (hk : List.Forall₂ Kept a b) : AddsAtMostOne d e sets b := by
  rcases h with h | ⟨h1, x, h2, h3⟩
  · exact Or.inl (forall2_trans kept_trans h hk)
  · exact Or.inr ⟨h1, x, h2, forall2_trans kept_trans h3 hk⟩

theorem getNew_adds (d e) (create : Bool) (sets : List FSet) (hu : Unique sets) : AddsAtMostOne d e sets (getNew d e create sets).sets := by
  unfold getNew
  split
  · rename_i n hn
    exact Or.inl ((syncCurrent_same d e sets hu n (List.mem_of_find?_eq_some hn)).1.imp fun _ _ h => h.1)
  · rename_i hnone
    have hno : ∀ f ∈ sets, equalIgnoreHash f.tmpl d.template = false := fun f hf => by simpa using List.find?_eq_none.1 hnone f hf
    split
    · unfold createCurrent
      split
      · exact Or.inl (kept_refl_list _)
      · rename_i size hsize
        have hx : SameTemplate (newSet d e sets size).tmpl d.template :=
          ⟨fun k hk => lookup_set_ne _ _ _ _ hk, rfl⟩
        split
        · exact Or.inl (kept_refl_list _)
        · rename_i f hc; exact Or.inr ⟨hno, f, Or.inr hc, kept_refl_list _⟩
        · rename_i hc; exact Or.inr ⟨hno, _, Or.inl ⟨hx, rfl, rfl, Or.inr hc⟩, kept_refl_list _⟩
        · rename_i hc; exact Or.inr ⟨hno, _, Or.inl ⟨hx, rfl, rfl, Or.inl hc⟩, kept_refl_list _⟩
    · exact Or.inl (kept_refl_list _)

theorem withSize_kept (d : Dep) (f : FSet) (n : Int) : Kept f (withSize d f n) := by
  unfold withSize
  split <;> exact ⟨rfl, rfl, rfl⟩

theorem resizeMS_kept (d : Dep) (l : List FSet) (r : List Rolling.MS) : List.Forall₂ Kept l (resizeMS d l r) := by
  refine forall2_map _ _ ?_
  intro a _
  split
  · exact withSize_kept _ _ _
  · exact ⟨rfl, rfl, rfl⟩

theorem rolloutCleanup_kept (d e old) (l : List FSet) : List.Forall₂ Kept l (rolloutCleanup d e old l) := by
  unfold rolloutCleanup
  split
  · exact cleanup_kept d e old l
  · exact kept_refl_list _

theorem rolling_adds (d e) (sets : List FSet) (hu : Unique sets) : AddsAtMostOne d e sets (rolloutRolling d e sets) := by
  have hg := getNew_adds d e true sets hu
  unfold rolloutRolling
  dsimp only
  split
  · exact hg
  · split
    · exact hg
    · exact adds_kept hg (forall2_trans kept_trans (resizeMS_kept _ _ _) (rolloutCleanup_kept _ _ _ _))

/-- looking twice: the second time, with creation, nothing can have been written the first time -/
theorem getNew_twice (d e) (sets : List FSet) (h : (getNew d e false sets).new = none) (he : (getNew d e false sets).err = false) :
    (getNew d e false sets).sets = sets := by
  unfold getNew at h he ⊢
  cases hf : sets.find? fun f => equalIgnoreHash f.tmpl d.template with
  | none => simp
  | some n =>
    rw [hf] at h he
    simp only at h he ⊢
    unfold syncCurrent at h he ⊢
    dsimp only at h he ⊢
    by_cases h1 : (Revision.synced d.annotations (diff d n) (Revision.newRevisionText ((others sets n.set.name).map (·.annotations))) n.annotations).2 = true
    · simp only [h1, if_true] at h he ⊢
      cases hs : e.setOk <;> simp [hs] at h he
    · simp only [h1] at h he ⊢
      cases hs : e.depOk <;> simp [hs] at h he

theorem recreate_adds (d e) (sets : List FSet) (hu : Unique sets) : AddsAtMostOne d e sets (rolloutRecreate d e sets) := by
  have hg := getNew_adds d e false sets hu
  unfold rolloutRecreate
  extract_lets g v wait g2 r
  have h2 : g.err = false → AddsAtMostOne d e sets g2.sets := by
    intro he
    by_cases hc : (g.new.isNone && !wait) = true
    · have : g2 = getNew d e true g.sets := if_pos hc
      rw [this]
      have hn : g.new = none := by
        cases hx : g.new with
        | none => rfl
        | some n => rw [hx] at hc; simp at hc
      have : g.sets = sets := getNew_twice d e sets hn he
      rw [this]
      exact getNew_adds d e true sets hu
    · have : g2 = g := if_neg hc
      rw [this]; exact hg
  split
  · exact hg
  · rename_i he
    have h2 := h2 (by simpa using he)
    split
    · exact h2
    · exact adds_kept h2 (forall2_trans kept_trans (resize_kept _ _) (rolloutCleanup_kept _ _ _ _))

theorem scaleOrRoll_adds (d e) (sets : List FSet) (hu : Unique sets) : AddsAtMostOne d e sets (scaleOrRoll d e sets) := by
  unfold scaleOrRoll
  dsimp only
  split
  · exact getNew_adds d e false sets hu
  · split
    · exact Or.inl (sync_kept d e sets hu)
    · split
      · exact recreate_adds d e sets hu
      · exact rolling_adds d e sets hu
      · exact Or.inl (kept_refl_list _)

theorem terminate_kept (e) (l : List FSet) : List.Forall₂ (fun a b => Kept a b ∧ b.set = a.set) l (terminate e l) := by
  refine forall2_map _ _ ?_
  intro a _
  split <;> exact ⟨⟨rfl, rfl, rfl⟩, rfl⟩

theorem terminate_unique (e) (l : List FSet) (hu : Unique l) : Unique (terminate e l) := by
  unfold Unique terminate at *
  rw [List.map_map]
  have : (l.map ((fun x => x.set.name) ∘ fun f => if e.deleteOk f.set.name = true then { f with deleting := true } else f)) = l.map (·.set.name) := by
    apply List.map_congr_left
    intro x _
    simp only [Function.comp]
    split <;> rfl
  rw [this]; exact hu

theorem deleting_kept (d e) (sets : List FSet) (hu : Unique sets) :
    List.Forall₂ (fun a b => Kept a b ∧ b.set = a.set) sets (reconcileDeleting d e sets).sets := by
  have hr : ∀ l : List FSet, List.Forall₂ (fun a b => Kept a b ∧ b.set = a.set) l l := forall2_refl fun _ => ⟨⟨rfl, rfl, rfl⟩, rfl⟩
  unfold reconcileDeleting
  split
  · exact hr _
  · split
    · exact List.Forall₂.nil
    · rename_i s _
      refine forall2_trans (S := Same) ?_ (terminate_kept e _) (getNew_same d e _ (terminate_unique e _ hu))
      intro a b c h1 h2
      exact ⟨kept_trans _ _ _ h1.1 h2.1, h2.2.1.trans h1.2⟩

/-- **C75**: a run – whatever it decides to do and whatever fails – leaves every machine set in place with its template (apart from the fields meant to be changed in place)
and adds at most one set: one with exactly the template the user asked for, and only if no set had that template before (or it turned out that a set of
the intended name exists already). It adds none while the deployment is paused or being deleted. -/
theorem C75_created_only_for_new_template (d : FDep) (e : Env) (sets : List FSet) (hu : Unique sets)
    (hmaps : IsMap d.template.labels ∧ ∀ f ∈ sets, IsMap f.tmpl.labels) :
    List.Forall₂ Kept sets (reconcile d e sets).sets
    ∨ (d.paused = false ∧ d.deleting = false ∧ (∀ f ∈ sets, ¬ SameTemplate f.tmpl d.template)
        ∧ ∃ x, ((SameTemplate x.tmpl d.template ∧ x.set.name = e.fresh) ∨ e.created = .existing x) ∧ List.Forall₂ Kept (sets ++ [x]) (reconcile d e sets).sets) := by
  have lift : d.paused = false → d.deleting = false → ∀ after, AddsAtMostOne d e sets after → List.Forall₂ Kept sets after
    ∨ (d.paused = false ∧ d.deleting = false ∧ (∀ f ∈ sets, ¬ SameTemplate f.tmpl d.template)
        ∧ ∃ x, ((SameTemplate x.tmpl d.template ∧ x.set.name = e.fresh) ∨ e.created = .existing x) ∧ List.Forall₂ Kept (sets ++ [x]) after) := by
    intro hp hd after h
    rcases h with h | ⟨h1, x, h2, h3⟩
    · exact Or.inl h
    · refine Or.inr ⟨hp, hd, ?_, x, h2.imp (fun h => ⟨h.1, h.2.1⟩) id, h3⟩
      intro f hf hs
      have := (C16_same_recognised f.tmpl d.template (hmaps.2 f hf) hmaps.1 hs).1
      rw [h1 f hf] at this
      exact absurd this (by simp)
  unfold reconcile
  split
  · exact Or.inl (kept_refl_list _)
  split
  · exact Or.inl (kept_refl_list _)
  split
  · exact Or.inl (kept_refl_list _)
  split
  · exact Or.inl ((deleting_kept d e sets hu).imp fun _ _ h => h.1)
  rename_i hd
  split
  · exact Or.inl (kept_refl_list _)
  split
  · exact Or.inl (sync_kept d e sets hu)
  rename_i hp
  split
  · rename_i rv hrv
    refine lift (by simpa using hp) (by simpa using hd) _ ?_
    unfold rollback
    dsimp only
    split <;> exact getNew_adds d e true sets hu
  · exact lift (by simpa using hp) (by simpa using hd) _ (scaleOrRoll_adds d e sets hu)

theorem reconcile_adds (d : FDep) (e : Env) (sets : List FSet) (hu : Unique sets) (hd : d.deleting = false) : AddsAtMostOne d e sets (reconcile d e sets).sets := by
  unfold reconcile
  split
  · exact Or.inl (kept_refl_list _)
  split
  · exact Or.inl (kept_refl_list _)
  split
  · exact Or.inl (kept_refl_list _)
  rw [hd]
  simp only [Bool.false_eq_true, if_false]
  split
  · exact Or.inl (kept_refl_list _)
  split
  · exact Or.inl (sync_kept d e sets hu)
  split
  · unfold rollback
    dsimp only
    split <;> exact getNew_adds d e true sets hu
  · exact scaleOrRoll_adds d e sets hu

/-! ## C76 -/

/-- **C76**: a run of a deployment that is being deleted changes no size, creates nothing and removes nothing; the finalizer goes only when no set is left. -/
theorem C76_deleting_only_marks (d : FDep) (e : Env) (sets : List FSet) (hu : Unique sets) (hd : d.deleting = true) :
    List.Forall₂ (fun a b => Kept a b ∧ b.set.spec = a.set.spec) sets (reconcile d e sets).sets
    ∧ ((reconcile d e sets).dep.finalizer ≠ d.finalizer → sets = [])
    ∧ (reconcile d e sets).dep.template = d.template := by
  have hr : List.Forall₂ (fun a b => Kept a b ∧ b.set.spec = a.set.spec) sets sets := forall2_refl (fun _ => ⟨⟨rfl, rfl, rfl⟩, rfl⟩) _
  unfold reconcile
  split
  · exact ⟨hr, by simp, rfl⟩
  split
  · exact ⟨hr, by simp, rfl⟩
  split
  · exact ⟨hr, by simp, rfl⟩
  refine ⟨(deleting_kept d e sets hu).imp fun _ _ h => ⟨h.1, by rw [h.2]⟩, ?_, ?_⟩
  · unfold reconcileDeleting
    split
    · simp
    · split
      · simp
      · simp
  · unfold reconcileDeleting
    split
    · rfl
    · split <;> rfl

/-- **C76**: if the calls succeed, one run marks every set for deletion, paused or not, and with any pending rollback. -/
theorem C76_deleting_marks_all (d : FDep) (e : Env) (sets : List FSet) (hu : Unique sets) (hd : d.deleting = true) (hf : d.finalizer = true)
    (hv : e.valid = true) (ha : d.selectsAll = false) (hl : e.listOk = true) (hdel : ∀ n, e.deleteOk n = true) :
    ∀ f ∈ (reconcile d e sets).sets, f.deleting = true := by
  unfold reconcile
  simp only [hv, ha, hl, hd, Bool.not_true, Bool.false_eq_true, if_false, if_true]
  unfold reconcileDeleting
  simp only [hf, Bool.not_true, Bool.false_eq_true, if_false]
  split
  · simp
  · intro f hfm
    have h1 := getNew_same d e _ (terminate_unique e sets hu)
    have h2 : ∀ g ∈ terminate e sets, g.deleting = true := by
      intro g hg
      obtain ⟨x, _, rfl⟩ := List.mem_map.1 hg
      simp [hdel]
    clear hu
    generalize (getNew d e false (terminate e sets)).sets = after at h1 hfm
    generalize terminate e sets = t at h1 h2
    induction h1 with
    | nil => simp at hfm
    | cons hs _ ih =>
      rcases List.mem_cons.1 hfm with rfl | hfm
      · rw [hs.2.2.2]; exact h2 _ (by simp)
      · exact ih hfm fun g hg => h2 g (by simp [hg])

/-- A deployment whose selector is empty or which is invalid is never deleted: the run ends before the deletion is looked at. -/
theorem C76_invalid_never_deleted_false (d : FDep) (e : Env) (sets : List FSet) (h : e.valid = false ∨ d.selectsAll = true) :
    (reconcile d e sets).dep = d ∧ (reconcile d e sets).sets = sets := by
  unfold reconcile
  rcases h with h | h
  · simp [h]
  · cases hv : e.valid <;> simp [h]

-- deleting a paused deployment with two sets
example : ((reconcile { dep3 with deleting := true } {} [v1 2 2, v2 1 0]).sets.map fun f => (f.set.spec, f.deleting)) = [(2, true), (1, true)] := by decide +kernel
example : (reconcile { dep3 with deleting := true } {} []).dep.finalizer = false := by decide +kernel

/-! ## C10 for whole runs -/

/-- The run that creates the new set scales it again right away: a fresh set reports no replicas yet, so the same surge is handed out twice. With three machines of the old
template – all reported – and a surge of one, five machines are wanted after a single run. -/
theorem C10_first_run_exceeds_surge_false :
    let d : FDep := { spec := { replicas := 3, maxSurge := some (.int 1), maxUnavailable := some (.int 0) }, template := { body := "v3" } }
    let before : List FSet := [{ v2 3 3 with status := 3 }]
    wanted before = 3 ∧ wanted (reconcile d { fresh := "w-v3" } before).sets = 5 := by decide +kernel

end MCM.Dispatch
