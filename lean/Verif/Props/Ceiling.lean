import Verif.Props.Floor
/-!
C114: how many machines there are while a rolling update is under way, in whole executions of all controllers.
-/
namespace MCM.World
open MCM MCM.Dispatch MCM.Rolling MCM.Template
open MCM.Termination (NameLike)

/-! ### Specification -/

/-- the machines of the whole deployment whose deletion nobody has asked for -/
def livingAll (w : World) : Int := (w.sets.map fun f => (Fleet.lives (w.fleet f.set.name).ms : Int)).sum
/-- all machines of the deployment, also those being deleted -/
def machinesAll (w : World) : Int := (w.sets.map fun f => ((w.fleet f.set.name).ms.length : Int)).sum

/-- One run of one of the controllers. `P` says what the deployment controller may see. -/
inductive Run (P : World → List FSet → Prop) (d : FDep) (w : World) : World → Prop
  | machines (f : FSet) (l : Fleet.Lab) (s' : Fleet.Fleet) : f ∈ w.sets → Fleet.Step (demand f) (w.fleet f.set.name) l s' →
      Run P d w (w.change f.set.name s')
  | status (f : FSet) : f ∈ w.sets → Run P d w (w.report f.set.name)
  | deploy (e : Dispatch.Env) (seen : List FSet) : Sees w.sets seen → e.Fine seen → P w seen → Run P d w (w.deploy d e seen)
  | gone (f : FSet) : f ∈ w.sets → f.deleting = true → (w.fleet f.set.name).ms = [] → Run P d w (w.drop f.set.name)

inductive Runs (P : World → List FSet → Prop) (d : FDep) : World → World → Prop
  | refl (w : World) : Runs P d w w
  | tail {w w1 w2 : World} : Runs P d w w1 → Run P d w1 w2 → Runs P d w w2

/-- `count` machines of the set are seen, or more, and not fewer than it is to have -/
def Noticed (count : Fleet.Fleet → Nat) (w : World) (f : FSet) : Prop := f.set.spec ≤ f.status ∧ (count (w.fleet f.set.name) : Int) ≤ f.status

/-- What a run of the deployment controller may see: there is a set of the current template already; not all sets are to be empty; and the reports of the numbers of machines add
up to the ceiling, or else none of them is behind the machines there are or are wanted. -/
def Watchful (count : Fleet.Fleet → Nat) (ceiling : Int) (d : FDep) (w : World) (seen : List FSet) : Prop :=
  (∃ f ∈ seen, equalIgnoreHash f.tmpl d.template = true) ∧ (∃ f ∈ seen, 0 < f.set.spec) ∧
  (ceiling ≤ (seen.map fun f => f.status).sum ∨ ∀ f ∈ seen, Noticed count w f)

/-- machines there are or are wanted -/
def extent (count : Fleet.Fleet → Nat) (w : World) : Int := (w.sets.map fun f => max f.set.spec (count (w.fleet f.set.name) : Int)).sum

/-- A set that lacks machines, and is not being deleted itself, has none being deleted. If the set of the current template is not as large as it is to become, it has no machine too many and none being
deleted. -/
def Tidy (d : FDep) (w : World) : Prop :=
  (∀ f ∈ w.sets, f.deleting = false → (Fleet.lives (w.fleet f.set.name).ms : Int) < f.set.spec → ∀ m ∈ (w.fleet f.set.name).ms, m.isDying = false) ∧
  (∀ n, w.sets.find? (fun f => equalIgnoreHash f.tmpl d.template) = some n → n.set.spec < d.spec.replicas →
    (Fleet.lives (w.fleet n.set.name).ms : Int) ≤ n.set.spec ∧ ∀ m ∈ (w.fleet n.set.name).ms, m.isDying = false)

/-! ### Sizes -/

/-- how a run of the deployment controller changes a set, when `n` is the set of the current template and gets `m` machines -/
structure Moved (n : FSet) (m : Int) (a b : FSet) : Prop where
  name : b.set.name = a.set.name
  tmpl : b.tmpl.labels = a.tmpl.labels ∧ b.tmpl.body = a.tmpl.body
  new : a.set.name = n.set.name → b.set.spec = m
  old : a.set.name ≠ n.set.name → b.set.spec ≤ a.set.spec

theorem moved_refl {d : FDep} {l : List FSet} (hs : Sound d l) {n : FSet} (hn : n ∈ l) : List.Forall₂ (Moved n n.set.spec) l l := by
  have := forall2_map (R := Moved n n.set.spec) id l fun a ha => ⟨rfl, ⟨rfl, rfl⟩, fun h => by rw [unique_eq l hs.unique a n ha hn h]; rfl, fun _ => Int.le_refl _⟩
  rwa [List.map_id] at this

theorem moved_then {R : FSet → FSet → Prop} (hR : ∀ a b, R a b → b.set.name = a.set.name ∧ b.set.spec = a.set.spec ∧ b.tmpl.labels = a.tmpl.labels ∧ b.tmpl.body = a.tmpl.body)
    {n : FSet} {m : Int} {l1 l2 l3 : List FSet} (h : List.Forall₂ (Moved n m) l1 l2) (h2 : List.Forall₂ R l2 l3) : List.Forall₂ (Moved n m) l1 l3 := by
  induction h generalizing l3 with
  | nil => cases h2; exact .nil
  | cons hm _ ih =>
    cases h2 with
    | cons hr h2 =>
      obtain ⟨h1, h3, h4, h5⟩ := hR _ _ hr
      exact .cons ⟨h1.trans hm.name, ⟨h4.trans hm.tmpl.1, h5.trans hm.tmpl.2⟩, fun h => h3.trans (hm.new h), fun h => by rw [h3]; exact hm.old h⟩ (ih h2)

theorem then_moved {R : FSet → FSet → Prop} (hR : ∀ a b, R a b → b.set.name = a.set.name ∧ b.set.spec = a.set.spec ∧ b.tmpl.labels = a.tmpl.labels ∧ b.tmpl.body = a.tmpl.body)
    {n : FSet} {m : Int} {l1 l2 l3 : List FSet} (h : List.Forall₂ R l1 l2) (h2 : List.Forall₂ (Moved n m) l2 l3) : List.Forall₂ (Moved n m) l1 l3 := by
  induction h generalizing l3 with
  | nil => cases h2; exact .nil
  | cons hr _ ih =>
    cases h2 with
    | cons hm h2 =>
      obtain ⟨h1, h3, h4, h5⟩ := hR _ _ hr
      exact .cons ⟨hm.name.trans h1, ⟨hm.tmpl.1.trans h4, hm.tmpl.2.trans h5⟩, fun h => hm.new (h1.trans h), fun h => by
        rw [← h3]; exact hm.old (by rw [h1]; exact h)⟩ (ih h2)

/-- how the size of the set of the current template changes: not at all, or down to the size of the deployment, or up within what the reports leave -/
def Grows (d : FDep) (ceiling : Int) (l : List FSet) (n m : Int) : Prop :=
  m = n ∨ (d.spec.replicas < n ∧ m = d.spec.replicas) ∨ (n < m ∧ m ≤ d.spec.replicas ∧ m - n ≤ ceiling - (l.map fun f => f.status).sum)

theorem rolled_moved {d : FDep} (hd : Rolls d) {surge : Int} (hsu : scaledValue d.spec.maxSurge d.spec.replicas true = some surge) {e : Rolling.Env} (he : e.Sorts)
    {l : List FSet} (hs : Sound d l) {n : FSet} (hn : cur d l = some n) :
    ∃ m, List.Forall₂ (Moved n m) l (rolled d e l n) ∧ Grows d (d.spec.replicas + surge) l n.set.spec m := by
  have hnm := cur_mem hn
  have hnn : ∀ s ∈ (others l n.set.name).map msOf, 0 ≤ s.avail ∧ 0 ≤ s.spec := by
    intro s hs'
    obtain ⟨f, hf, rfl⟩ := List.mem_map.1 hs'
    exact ⟨(hs.nonneg f (mem_others.1 hf).1).2, (hs.nonneg f (mem_others.1 hf).1).1⟩
  have hout : ((rolloutStep d.spec e ((others l n.set.name).map msOf) (msOf n)).1.map (·.name)).Perm (((others l n.set.name).map msOf).map (·.name))
      ∧ (rolloutStep d.spec e ((others l n.set.name).map msOf) (msOf n)).2.name = n.set.name
      ∧ (∀ s ∈ (rolloutStep d.spec e ((others l n.set.name).map msOf) (msOf n)).1, ∃ y ∈ (others l n.set.name).map msOf, s.name = y.name ∧ s.spec ≤ y.spec)
      ∧ Grows d (d.spec.replicas + surge) l n.set.spec (rolloutStep d.spec e ((others l n.set.name).map msOf) (msOf n)).2.spec := by
    rcases step_cases d.spec e ((others l n.set.name).map msOf) (msOf n) with h | ⟨m, hne, h, hc⟩ | ⟨old0, h0, _⟩
    · rw [h]; exact ⟨.refl _, rfl, fun s hs => ⟨s, hs, rfl, Int.le_refl _⟩, .inl rfl⟩
    · rw [h]
      refine ⟨.refl _, rfl, fun s hs => ⟨s, hs, rfl, Int.le_refl _⟩, ?_⟩
      rcases hc with ⟨h1, rfl⟩ | ⟨h1, h2⟩
      · exact .inr (.inl ⟨h1, rfl⟩)
      · obtain ⟨b1, b2, b3⟩ := newReplicas_bound d.spec surge hd.strategy hsu _ (msOf n) m (by omega) h2
        have hst : statusSum ((others l n.set.name).map msOf ++ [msOf n]) = (l.map fun f => f.status).sum := by
          unfold statusSum
          rw [sum_split (fun f => f.status) hs.unique hnm, List.map_append, List.sum_append, List.map_map]
          show _ + (n.status + 0) = _
          rw [Int.add_zero]; rfl
        have b4 : m > (msOf n).spec := by omega
        have b5 := b3 b4
        rw [hst] at b5
        exact .inr (.inr ⟨b4, b2, b5⟩)
    · rcases rolloutStep_sets d.spec hd.strategy e he ((others l n.set.name).map msOf) (msOf n) hnn with h | ⟨m, h, hlt, _⟩ | ⟨old', h, h1⟩
      · rw [h]; exact ⟨.refl _, rfl, fun s hs => ⟨s, hs, rfl, Int.le_refl _⟩, .inl rfl⟩
      · rw [h0] at h
        have : (msOf n).spec = m := congrArg (fun x => x.2.spec) h
        omega
      · rw [h]
        refine ⟨h1.names, rfl, fun s hs => ?_, .inl rfl⟩
        obtain ⟨y, hy, hsh⟩ := h1.shrunk s hs
        exact ⟨y, hy, hsh.1, hsh.2.2.1⟩
  unfold rolled
  revert hout
  generalize rolloutStep d.spec e ((others l n.set.name).map msOf) (msOf n) = r
  intro ⟨p1, p2, p3, p4⟩
  refine ⟨r.2.spec, ?_, p4⟩
  rw [resizeMS_map]
  have hnames := others_names l hs.unique n.set.name
  have hno : ∀ s ∈ r.1, s.name ≠ n.set.name := by
    intro s hs' he'
    have h1 : s.name ∈ (((others l n.set.name).map msOf)).map (·.name) := p1.mem_iff.1 (List.mem_map.2 ⟨s, hs', rfl⟩)
    obtain ⟨x, hx, hxn⟩ := List.mem_map.1 h1
    obtain ⟨f, hf, rfl⟩ := List.mem_map.1 hx
    exact (mem_others.1 hf).2 (by rw [← he', ← hxn]; rfl)
  have hnd : ((r.1 ++ [r.2]).map (·.name)).Nodup := by
    rw [List.map_append, List.nodup_append]
    refine ⟨p1.symm.nodup hnames, by simp, ?_⟩
    intro a ha b hb'
    obtain ⟨s, hs', rfl⟩ := List.mem_map.1 ha
    simp only [List.map_cons, List.map_nil, List.mem_singleton] at hb'
    rw [hb', p2]; exact hno s hs'
  refine forall2_map _ _ fun a ha => ?_
  have hsz := resized_sized d (r.1 ++ [r.2]) a
  refine ⟨hsz.name, by rw [hsz.tmpl]; exact ⟨rfl, rfl⟩, fun h => ?_, fun h => ?_⟩
  · exact resized_spec (find_unique_name hnd (by simp) (p2.trans h.symm))
  · have : a.set.name ∈ r.1.map (·.name) := p1.mem_iff.2 (List.mem_map.2 ⟨msOf a, List.mem_map.2 ⟨a, mem_others.2 ⟨ha, h⟩, rfl⟩, rfl⟩)
    obtain ⟨s, hs', hsn⟩ := List.mem_map.1 this
    rw [resized_spec (find_unique_name hnd (by simp [hs']) hsn)]
    obtain ⟨y, hy, hyn, hys⟩ := p3 s hs'
    obtain ⟨g, hg, rfl⟩ := List.mem_map.1 hy
    have : g = a := unique_eq l hs.unique g a (mem_others.1 hg).1 ha (by rw [← hsn, hyn]; rfl)
    subst this
    exact hys

theorem reconcile_moved {d : FDep} (hd : Rolls d) {surge : Int} (hsu : scaledValue d.spec.maxSurge d.spec.replicas true = some surge) {e : Dispatch.Env} {l : List FSet}
    (he : e.Fine l) (hs : Sound d l) {n : FSet} (hn : cur d l = some n) (hp : ∃ f ∈ l, 0 < f.set.spec) :
    ∃ m, List.Forall₂ (Moved n m) l (reconcile d e l).sets ∧ Grows d (d.spec.replicas + surge) l n.set.spec m := by
  have self : ∃ m, List.Forall₂ (Moved n m) l l ∧ Grows d (d.spec.replicas + surge) l n.set.spec m := ⟨_, moved_refl hs (cur_mem hn), .inl rfl⟩
  have alike : ∀ {l' out : List FSet}, List.Forall₂ Alike l' out → (∃ m, List.Forall₂ (Moved n m) l l' ∧ Grows d (d.spec.replicas + surge) l n.set.spec m) →
      ∃ m, List.Forall₂ (Moved n m) l out ∧ Grows d (d.spec.replicas + surge) l n.set.spec m := by
    intro l' out h1 ⟨m, h2, h3⟩
    exact ⟨m, moved_then (fun a b hr => ⟨hr.name, hr.spec, by rw [hr.tmpl], by rw [hr.tmpl]⟩) h2 h1, h3⟩
  rcases reconcile_rolls hd.toPlain e l with h | h
  · rw [h]; exact self
  rw [h]
  rcases scaleOrRoll_cases hd (e := e) hs with ⟨n', hn', hw, h⟩ | ⟨n', hn', hw, ⟨_, h⟩ | ⟨hz, hr, h⟩ | h⟩ | ⟨hn', h⟩
  · rw [hn] at hn'; cases hn'
    rw [h]
    split
    · exact ⟨_, moved_then (fun a b hr => ⟨by rw [hr.1], by rw [hr.1], hr.2.1.1, hr.2.1.2⟩) (moved_refl hs (cur_mem hn)) (written_forall2 (d := d) hs.unique (cur_mem hn)), .inl rfl⟩
    · exact self
  · rw [h]; exact self
  · obtain ⟨f, hf, h0⟩ := hp
    have := hz f hf
    omega
  · rw [hn] at hn'; cases hn'
    rw [h]
    rcases rolling_cur (e := e) hs.unique hn hw with ⟨h1, _⟩ | ⟨h1, _⟩
    · exact alike h1 self
    · exact alike h1 (rolled_moved hd hsu he.sorts hs hn)
  · rw [hn] at hn'; cases hn'

theorem cur_some {d : FDep} {l : List FSet} (h : ∃ f ∈ l, equalIgnoreHash f.tmpl d.template = true) : ∃ n, cur d l = some n := by
  obtain ⟨f, hf, he⟩ := h
  cases hc : cur d l with
  | some n => exact ⟨n, rfl⟩
  | none => exact absurd he (by simpa using List.find?_eq_none.1 hc f hf)

/-- a run of the deployment controller that sees what it may see, by what is stored -/
theorem deploy_moved {count : Fleet.Fleet → Nat} {d : FDep} (hd : Rolls d) {surge : Int} (hsu : scaledValue d.spec.maxSurge d.spec.replicas true = some surge) {w : World}
    (hw : Ready d w) {e : Dispatch.Env} {seen : List FSet} (h1 : Sees w.sets seen) (h2 : e.Fine seen) (h3 : Watchful count (d.spec.replicas + surge) d w seen) :
    ∃ n m, cur d w.sets = some n ∧ List.Forall₂ (Moved n m) w.sets (w.deploy d e seen).sets ∧ Grows d (d.spec.replicas + surge) seen n.set.spec m := by
  obtain ⟨n, hn⟩ := cur_some h3.1
  obtain ⟨m, h4, h5⟩ := reconcile_moved hd hsu h2 (sees_sound h1 hw.sound) hn h3.2.1
  have hag : ∀ a b, Agree a b → b.set.name = a.set.name ∧ b.set.spec = a.set.spec ∧ b.tmpl.labels = a.tmpl.labels ∧ b.tmpl.body = a.tmpl.body :=
    fun a b h => ⟨h.name, h.spec, by rw [h.tmpl], by rw [h.tmpl]⟩
  rcases cur_forall2 (d := d) (fun a b hr => agree_body hr) (sees_agree h1) with ⟨_, h0⟩ | ⟨a, b, ha, hb, hab⟩
  · rw [hn] at h0; cases h0
  · rw [hn] at hb; cases hb
    refine ⟨a, m, ha, ?_, by rw [← hab.spec]; exact h5⟩
    have h6 := moved_then hag (then_moved hag (sees_agree h1) h4) (restore_agree w.sets (reconcile d e seen).sets)
    refine h6.imp fun x y hxy => ⟨hxy.name, hxy.tmpl, fun h => hxy.new (by rw [hab.name]; exact h), fun h => hxy.old (by rw [hab.name]; exact h)⟩

theorem sum_moved {k : String → Nat} {n : FSet} {m : Int} {l out : List FSet} (h : List.Forall₂ (Moved n m) l out) (hu : Unique l) :
    (∀ f ∈ l, f.set.name ≠ n.set.name) ∧ (out.map fun f => max f.set.spec (k f.set.name : Int)).sum ≤ (l.map fun f => max f.set.spec (k f.set.name : Int)).sum ∨
    ∃ f ∈ l, f.set.name = n.set.name ∧
      (out.map fun f => max f.set.spec (k f.set.name : Int)).sum ≤ (l.map fun f => max f.set.spec (k f.set.name : Int)).sum + max 0 (m - f.set.spec) := by
  induction h with
  | nil => exact .inl ⟨by simp, by simp⟩
  | @cons a b l out hm _ ih =>
    have hu' : a.set.name ∉ l.map (·.set.name) ∧ Unique l := List.nodup_cons.1 hu
    have ih := ih hu'.2
    simp only [List.map_cons, List.sum_cons]
    rw [hm.name]
    by_cases hc : a.set.name = n.set.name
    · right
      refine ⟨a, by simp, hc, ?_⟩
      have h1 := hm.new hc
      rcases ih with ⟨_, h2⟩ | ⟨f, hf, hfn, _⟩
      · omega
      · exact absurd (List.mem_map.2 ⟨f, hf, hfn.trans hc.symm⟩) hu'.1
    · have h1 := hm.old hc
      rcases ih with ⟨h0, h2⟩ | ⟨f, hf, hfn, h2⟩
      · left
        refine ⟨fun f hf => ?_, by omega⟩
        rcases List.mem_cons.1 hf with rfl | hf
        · exact hc
        · exact h0 f hf
      · exact .inr ⟨f, by simp [hf], hfn, by omega⟩

theorem deploy_extent {count : Fleet.Fleet → Nat} {d : FDep} (hd : Rolls d) {surge : Int} (hsu : scaledValue d.spec.maxSurge d.spec.replicas true = some surge) {w : World}
    (hw : Ready d w) {e : Dispatch.Env} {seen : List FSet} (h1 : Sees w.sets seen) (h2 : e.Fine seen) (h3 : Watchful count (d.spec.replicas + surge) d w seen) :
    extent count (w.deploy d e seen) ≤ max (d.spec.replicas + surge) (extent count w) := by
  obtain ⟨n, m, hn, hm, hg⟩ := deploy_moved hd hsu hw h1 h2 h3
  rcases sum_moved (k := fun x => count (w.fleet x)) hm hw.sound.unique with ⟨h0, _⟩ | ⟨f, hf, hfn, h4⟩
  · exact absurd rfl (h0 n (cur_mem hn))
  · have : f = n := unique_eq _ hw.sound.unique f n hf (cur_mem hn) hfn
    subst this
    have h5 : extent count (w.deploy d e seen) ≤ extent count w + max 0 (m - f.set.spec) := h4
    rcases hg with rfl | ⟨h6, rfl⟩ | ⟨h6, h7, h8⟩
    · omega
    · omega
    · rcases h3.2.2 with h9 | h9
      · omega
      · have h10 : extent count w ≤ (seen.map fun f => f.status).sum := by
          have h11 : extent count w = (seen.map fun f => max f.set.spec (count (w.fleet f.set.name) : Int)).sum := by
            unfold extent
            rw [map_forall2 (g := fun f => max f.set.spec (count (w.fleet f.set.name) : Int)) (fun a b hr => by rw [hr.name, hr.spec]) (sees_agree h1)]
          rw [h11]
          refine sum_le fun g hg => ?_
          have := h9 g hg
          unfold Noticed at this
          omega
        omega

theorem extent_change {count : Fleet.Fleet → Nat} {d : FDep} {w : World} (hw : Ready d w) {f : FSet} (hf : f ∈ w.sets) {s' : Fleet.Fleet}
    (h : (count s' : Int) ≤ max f.set.spec (count (w.fleet f.set.name) : Int)) : extent count (w.change f.set.name s') ≤ extent count w := by
  unfold extent
  refine sum_le fun g hg => ?_
  unfold World.change
  dsimp only
  split
  · rename_i he
    rw [unique_eq w.sets hw.sound.unique g f hg hf he]
    omega
  · exact Int.le_refl _

theorem extent_report (count : Fleet.Fleet → Nat) (w : World) (n : String) : extent count (w.report n) = extent count w := by
  unfold extent
  show ((w.report n).sets.map fun f => max f.set.spec (count (w.fleet f.set.name) : Int)).sum = _
  rw [map_forall2 (g := fun f => max f.set.spec (count (w.fleet f.set.name) : Int)) (fun a b hr => by rw [hr.name, hr.spec]) (report_agree w n)]

theorem Run.step {P : World → List FSet → Prop} {d : FDep} {w w' : World} (h : Run P d w w') : ∃ l, Step d w l w' := by
  cases h with
  | machines f l s' hf hst => exact ⟨_, .machines f l s' hf hst⟩
  | status f hf => exact ⟨_, .status f hf⟩
  | deploy e seen h1 h2 _ => exact ⟨_, .poor e seen h1 h2⟩
  | gone f hf h1 h2 => exact ⟨_, .gone f hf h1 h2⟩

theorem goal_spec {f : FSet} (h : 0 ≤ f.set.spec) : (Fleet.goal (demand f) : Int) ≤ f.set.spec := by have := goal_le f; omega

theorem goal_demand {f : FSet} (h : 0 ≤ f.set.spec) (hx : f.deleting = false) : (Fleet.goal (demand f) : Int) = f.set.spec :=
  goal_retired h fun hc => by rw [hx] at hc; cases hc

theorem extent_drop (count : Fleet.Fleet → Nat) (w : World) (n : String) : extent count (w.drop n) ≤ extent count w := by
  show ((others w.sets n).map fun f => max f.set.spec (count (w.fleet f.set.name) : Int)).sum ≤ extent count w
  unfold extent
  generalize w.sets = l
  induction l with
  | nil => exact Int.le_refl _
  | cons a l ih =>
    unfold others at ih ⊢
    rw [List.filter_cons]
    split
    · rw [List.map_cons, List.sum_cons, List.map_cons, List.sum_cons]; omega
    · rw [List.map_cons, List.sum_cons]; omega

/-! ### Living machines -/

/-- the machines of a set that nobody has asked to delete -/
def livesOf (s : Fleet.Fleet) : Nat := Fleet.lives s.ms

theorem run_living {d : FDep} (hd : Rolls d) {surge : Int} (hsu : scaledValue d.spec.maxSurge d.spec.replicas true = some surge) {w w' : World} (hw : Ready d w)
    (h : Run (Watchful livesOf (d.spec.replicas + surge) d) d w w') : extent livesOf w' ≤ max (d.spec.replicas + surge) (extent livesOf w) := by
  cases h with
  | machines f l s' hf hst =>
    have h1 := Fleet.step_bound (unfrozen _) (hw.start _) hst
    have h2 := goal_spec (hw.sound.nonneg f hf).1
    have h3 := extent_change (count := livesOf) hw hf (s' := s') (by unfold livesOf; omega)
    omega
  | status f hf => rw [extent_report]; omega
  | gone f hf _ _ => have := extent_drop livesOf w f.set.name; omega
  | deploy e seen h1 h2 h3 => exact deploy_extent hd hsu hw h1 h2 h3

theorem living_extent (w : World) : livingAll w ≤ extent livesOf w := sum_le fun _ _ => Int.le_max_right _ _

theorem runs_living {d : FDep} (hd : Rolls d) {surge : Int} (hsu : scaledValue d.spec.maxSurge d.spec.replicas true = some surge) {w w' : World} (hw : Ready d w)
    (h : Runs (Watchful livesOf (d.spec.replicas + surge) d) d w w') : Ready d w' ∧ extent livesOf w' ≤ max (d.spec.replicas + surge) (extent livesOf w) := by
  induction h with
  | refl => exact ⟨hw, by omega⟩
  | tail _ hr ih =>
    obtain ⟨h1, h2⟩ := ih
    obtain ⟨l, hst⟩ := hr.step
    have := run_living hd hsu h1 hr
    exact ⟨(step_ready hd h1 hst).1, by omega⟩

/-! ### All machines -/

/-- a set that does not have too many machines loses none in a run of the machine set controller -/
theorem set_keeps {srt : List Machine → List Machine} (hs : ∀ l, (srt l).Perm l) {now : Int} {ms : MachineSet.MSet} (hf : ms.freezeLabel ≠ "True")
    (hx : ms.deleting = false) {s : Fleet.Fleet} (h0 : Fleet.Settled s) (hd : Fleet.lives s.ms ≤ Fleet.goal ms) : s.ms.filterMap (Fleet.setRun srt now ms s.ms) = s.ms := by
  have hp := Fleet.planned srt hs ms hf hx s.ms
  rw [Fleet.counted_lives h0.start h0.fresh h0.marked, show (s.ms.filter fun m => !m.isDying).length = Fleet.lives s.ms from rfl] at hp
  have hvic : (Fleet.plan srt ms s.ms).victims = [] := List.length_eq_zero_iff.1 (by omega)
  refine Fleet.filterMap_self fun m hm => ?_
  unfold Fleet.setRun
  split
  · rename_i ht
    unfold Fleet.targets at ht
    rw [hvic, List.append_nil] at ht
    obtain ⟨y, hy, hyn⟩ := List.mem_map.1 ht
    rw [Fleet.plan_of hx] at hy
    rw [MachineSet.staleTerminated_eq] at hy
    obtain ⟨hy1, hy2⟩ := List.mem_filter.1 hy
    obtain ⟨m2, hm2, rfl⟩ := List.mem_map.1 hy1
    rw [Fleet.view_name] at hyn
    rw [Fleet.unique h0.start.names hm2 hm hyn] at hy2
    cases m with
    | dying _ _ _ _ _ => rfl
    | live vms v x => rw [h0.fresh _ hm rfl] at hy2; cases hy2
  · rfl

/-- no machine of the list is being deleted -/
def NoneDying (l : List Fleet.M) : Prop := ∀ m ∈ l, m.isDying = false

theorem noneDying_length {l : List Fleet.M} (h : NoneDying l) : Fleet.lives l = l.length := by
  unfold Fleet.lives
  rw [List.filter_eq_self.2 fun m hm => by rw [h m hm]; rfl]

theorem machine_noneDying {ms : MachineSet.MSet} {s s' : Fleet.Fleet} {l : Fleet.Lab} (h0 : Fleet.Start s) (h : Fleet.Step ms s l s') (hl : l ≠ .set) :
    Fleet.lives s'.ms = Fleet.lives s.ms ∧ s'.ms.length ≤ s.ms.length ∧ (NoneDying s.ms → NoneDying s'.ms) := by
  cases h with
  | set => exact absurd rfl hl
  | machine e vm vms v x h1 h2 h3 =>
    refine ⟨Fleet.machine_lives _ _ _ _, by rw [Fleet.after_nil]; exact List.length_filterMap_le _ _, fun hn m' hm' => ?_⟩
    rcases Fleet.after_mem hm' with ⟨m, hm, h⟩ | h
    · rcases Fleet.machine_mem h0 h1 hm h with ⟨rfl, rfl⟩ | ⟨_, rfl⟩
      · rfl
      · exact hn _ hm
    · cases h
  | late e vms t p c tr h1 h2 h3 =>
    refine ⟨Fleet.term_lives _ _ _, by rw [Fleet.after_nil]; exact List.length_filterMap_le _ _, fun hn => ?_⟩
    have := hn _ h1
    cases this
  | early e vms t p c tr h1 h2 =>
    refine ⟨Fleet.term_lives _ _ _, by rw [Fleet.after_nil]; exact List.length_filterMap_le _ _, fun hn => ?_⟩
    have := hn _ h1
    cases this

theorem step_total {ms : MachineSet.MSet} (hf : ms.freezeLabel ≠ "True") {s s' : Fleet.Fleet} {l : Fleet.Lab} (h0 : Fleet.Settled s) (h : Fleet.Step ms s l s')
    (ht : Fleet.lives s.ms < Fleet.goal ms → NoneDying s.ms) : s'.ms.length ≤ max (Fleet.goal ms) s.ms.length ∧ (Fleet.lives s'.ms < Fleet.goal ms → NoneDying s'.ms) ∧
      (ms.deleting = false → Fleet.lives s.ms ≤ Fleet.goal ms → NoneDying s.ms → Fleet.lives s'.ms ≤ Fleet.goal ms ∧ NoneDying s'.ms) := by
  have hgone : ms.deleting = true → Fleet.goal ms = 0 := fun hx => by unfold Fleet.goal; rw [hx]; rfl
  by_cases hl : l = .set
  · cases h with
    | machine => cases hl
    | late => cases hl
    | early => cases hl
    | set srt now new h1 h2 h3 h4 =>
      cases hx : ms.deleting with
      | true =>
        have h5 := hgone hx
        have h6 : (Fleet.plan srt ms s.ms).issued = 0 := by unfold Fleet.plan; rw [hx]; rfl
        refine ⟨?_, fun h => absurd h (by omega), fun h => by cases h⟩
        unfold Fleet.Fleet.after
        dsimp only
        have h7 := List.length_filterMap_le (Fleet.setRun srt now ms s.ms) s.ms
        rw [List.length_append, h2, h6]; omega
      | false =>
      have hlv := Fleet.set_settled (now := now) h1 hf hx h0.start h0.fresh h0.marked h3 h2
      have hp := (Fleet.planned srt h1 ms hf hx s.ms).1
      rw [Fleet.counted_lives h0.start h0.fresh h0.marked, show (s.ms.filter fun m => !m.isDying).length = Fleet.lives s.ms from rfl] at hp
      have keep : Fleet.lives s.ms ≤ Fleet.goal ms → NoneDying s.ms → NoneDying (s.after (Fleet.setRun srt now ms s.ms) new).ms := by
        intro hle hn m hm
        unfold Fleet.Fleet.after at hm
        dsimp only at hm
        rw [set_keeps h1 hf hx h0 hle] at hm
        rcases List.mem_append.1 hm with hm | hm
        · exact hn m hm
        · exact Fleet.fresh_live (h3 m hm)
      refine ⟨?_, fun h5 => ?_, fun _ h5 h6 => ⟨by omega, keep h5 h6⟩⟩
      · unfold Fleet.Fleet.after
        dsimp only
        have h7 := List.length_filterMap_le (Fleet.setRun srt now ms s.ms) s.ms
        rw [List.length_append, h2, hp]
        by_cases h6 : Fleet.lives s.ms < Fleet.goal ms
        · have := noneDying_length (ht h6)
          omega
        · omega
      · have h6 : Fleet.lives s.ms < Fleet.goal ms := by omega
        exact keep (by omega) (ht h6)
  · obtain ⟨h1, h2, h3⟩ := machine_noneDying h0.start h hl
    exact ⟨by omega, fun h5 => h3 (ht (by omega)), fun _ h5 h6 => ⟨by omega, h3 h6⟩⟩

/-- all machines of a set -/
def allOf (s : Fleet.Fleet) : Nat := s.ms.length

theorem tidy_report {d : FDep} {w : World} (h : Tidy d w) (n : String) : Tidy d (w.report n) := by
  refine ⟨fun f hf hx hlt => ?_, fun c hc hlt => ?_⟩
  · obtain ⟨g, hg, hr⟩ := mem_forall2 (report_still w n) f hf
    have := h.1 g hg (by rw [← hr.mark]; exact hx) (by rw [← hr.spec, ← hr.name]; exact hlt)
    rw [← hr.name] at this
    exact this
  · rcases cur_forall2 (d := d) (fun a b hr => agree_body hr) (report_agree w n) with ⟨_, h0⟩ | ⟨a, b, ha, hb, hab⟩
    · rw [show cur d (w.report n).sets = some c from hc] at h0; cases h0
    · rw [show cur d (w.report n).sets = some c from hc] at hb; cases hb
      have := h.2 a ha (by rw [← hab.spec]; exact hlt)
      rw [← hab.spec, ← hab.name] at this
      exact this

/-- a set keeps its mark -/
theorem step_stays {d : FDep} (hd : Plain d) {w w' : World} {l : Lab} (hu : Dispatch.Unique w.sets) (h : Step d w l w') (hl : ∀ n, l ≠ .gone n) {c : FSet} (hc : cur d w.sets = some c)
    {f f' : FSet} (hf : f ∈ w.sets) (hf' : f' ∈ w'.sets) (hn : f'.set.name = f.set.name) (hx : f'.deleting = false) : f.deleting = false := by
  obtain ⟨a, b, s1, ev, s2⟩ := step_evolves hd hu h hl
  obtain ⟨g, hg, r2⟩ := mem_forall2 s2 f' hf'
  rcases ev with ev | ⟨h1, _⟩
  · obtain ⟨g0, hg0, r1⟩ := mem_forall2 ev g hg
    obtain ⟨x, hx', r0⟩ := mem_forall2 s1 g0 hg0
    have : x = f := unique_eq _ hu x f hx' hf (by rw [← hn, r2.name, r1.kept.1, r0.name])
    subst this
    cases hq : x.deleting with
    | false => rfl
    | true =>
      rw [r2.mark, r1.stays (by rw [r0.mark]; exact hq)] at hx
      cases hx
  · rcases cur_forall2 (d := d) (fun a b hr => by rw [hr.tmpl]; exact ⟨rfl, rfl⟩) s1 with ⟨h0, _⟩ | ⟨x, y, h2, h3, _⟩
    · rw [h0] at hc; cases hc
    · rw [h3] at h1; cases h1

theorem run_total {d : FDep} (hd : Rolls d) {surge : Int} (hsu : scaledValue d.spec.maxSurge d.spec.replicas true = some surge) {w w' : World} (hw : Ready d w)
    (hse : ∀ n, Fleet.Settled (w.fleet n)) (ht : Tidy d w) (h : Run (Watchful allOf (d.spec.replicas + surge) d) d w w') :
    (∀ n, Fleet.Settled (w'.fleet n)) ∧ Tidy d w' ∧ extent allOf w' ≤ max (d.spec.replicas + surge) (extent allOf w) := by
  cases h with
  | machines f l s' hf hst =>
    have h2 := goal_spec (hw.sound.nonneg f hf).1
    have h2' := goal_demand (hw.sound.nonneg f hf).1
    obtain ⟨t1, t2, t3⟩ := step_total (unfrozen _) (hse _) hst (fun hlt => ht.1 f hf (by
      cases hx : f.deleting with
      | false => rfl
      | true => rw [show Fleet.goal (demand f) = 0 by unfold Fleet.goal demand; rw [hx]; rfl] at hlt; omega) (by omega))
    refine ⟨fun n => ?_, ⟨fun g hg => ?_, fun c hc hlt => ?_⟩, ?_⟩
    · unfold World.change
      dsimp only
      split
      · exact Fleet.step_settled (hse _) hst
      · exact hse n
    · unfold World.change at *
      dsimp only at *
      split
      · rename_i he
        rw [unique_eq w.sets hw.sound.unique g f hg hf he]
        exact fun hx hlt => t2 (by have := h2' hx; omega)
      · exact ht.1 g hg
    · have h3 := ht.2 c hc hlt
      have hcm : c ∈ w.sets := List.mem_of_find?_eq_some hc
      unfold World.change
      dsimp only
      split
      · rename_i he
        have := unique_eq w.sets hw.sound.unique c f hcm hf he
        subst this
        have hx := hw.current c hc
        have h2 := h2' hx
        have h4 := t3 hx (by omega) h3.2
        exact ⟨by omega, h4.2⟩
      · exact h3
    · have h3 := extent_change (count := allOf) hw hf (s' := s') (by unfold allOf; omega)
      omega
  | status f hf => exact ⟨hse, tidy_report ht _, by rw [extent_report]; omega⟩
  | gone f hf h1 h2 =>
    refine ⟨hse, ⟨fun g hg => ht.1 g (mem_others.1 hg).1, fun c hc => ?_⟩, by have := extent_drop allOf w f.set.name; omega⟩
    have : cur d (others w.sets f.set.name) = some c := hc
    rw [fresh_drop hw.sound.unique hw.current hf h1] at this
    exact ht.2 c this
  | deploy e seen h1 h2 h3 =>
    refine ⟨hse, ?_, deploy_extent hd hsu hw h1 h2 h3⟩
    obtain ⟨n, m, hn, hm, hg⟩ := deploy_moved hd hsu hw h1 h2 h3
    have hgrow : n.set.spec < m → m ≤ d.spec.replicas := by
      intro hlt
      rcases hg with rfl | ⟨h6, rfl⟩ | ⟨h6, h7, h8⟩ <;> omega
    have hfall : m < n.set.spec → m = d.spec.replicas := by
      intro hlt
      rcases hg with rfl | ⟨h6, rfl⟩ | ⟨h6, h7, h8⟩ <;> omega
    refine ⟨fun f hf hx hlt => ?_, fun c hc hlt => ?_⟩
    · obtain ⟨g, hg', hr⟩ := mem_forall2 hm f hf
      have hx := step_stays hd.toPlain hw.sound.unique (Step.poor e seen h1 h2) (fun n h => by cases h) hn hg' hf hr.name hx
      rw [deploy_fleet] at hlt ⊢
      rw [hr.name] at hlt ⊢
      by_cases hc : g.set.name = n.set.name
      · have := unique_eq _ hw.sound.unique g n hg' (cur_mem hn) hc
        subst this
        rw [hr.new rfl] at hlt
        by_cases h5 : (Fleet.lives (w.fleet g.set.name).ms : Int) < g.set.spec
        · exact ht.1 g hg' hx h5
        · exact (ht.2 g hn (by have := hgrow (by omega); omega)).2
      · exact ht.1 g hg' hx (by have := hr.old hc; omega)
    · rcases cur_forall2 (d := d) (fun a b hr => hr.tmpl) hm with ⟨h0, _⟩ | ⟨a, b, ha, hb, hab⟩
      · rw [hn] at h0; cases h0
      · rw [show cur d (w.deploy d e seen).sets = some c from hc] at hb
        cases hb
        rw [hn] at ha; cases ha
        have h5 := hab.new rfl
        rw [deploy_fleet, hab.name, h5]
        rw [h5] at hlt
        have h6 : n.set.spec ≤ m := by
          by_cases h7 : m < n.set.spec
          · have := hfall h7; omega
          · omega
        have h8 := ht.2 n hn (by omega)
        exact ⟨by omega, h8.2⟩

theorem total_extent (w : World) : machinesAll w ≤ extent allOf w := sum_le fun _ _ => Int.le_max_right _ _

theorem runs_total {d : FDep} (hd : Rolls d) {surge : Int} (hsu : scaledValue d.spec.maxSurge d.spec.replicas true = some surge) {w w' : World} (hw : Ready d w)
    (hse : ∀ n, Fleet.Settled (w.fleet n)) (ht : Tidy d w) (h : Runs (Watchful allOf (d.spec.replicas + surge) d) d w w') :
    Ready d w' ∧ (∀ n, Fleet.Settled (w'.fleet n)) ∧ Tidy d w' ∧ extent allOf w' ≤ max (d.spec.replicas + surge) (extent allOf w) := by
  induction h with
  | refl => exact ⟨hw, hse, ht, by omega⟩
  | tail _ hr ih =>
    obtain ⟨h1, h2, h3, h4⟩ := ih
    obtain ⟨l, hst⟩ := hr.step
    obtain ⟨h5, h6, h7⟩ := run_total hd hsu h1 h2 h3 hr
    exact ⟨(step_ready hd h1 hst).1, h5, h6, by omega⟩

/-! ### The theorems -/

theorem surge_of {d : FDep} {b : Budget} (hb : b.Parses) (h1 : d.spec.maxSurge = some b.manifest) {s : Int} (hs : b.UpTo d.spec.replicas s) :
    scaledValue d.spec.maxSurge d.spec.replicas true = some s := by
  obtain ⟨k, hk, hu⟩ := scaledValue_up b hb d.spec.replicas
  rw [h1, hk]
  congr 1
  cases b with
  | abs n => simp only [Budget.UpTo] at hs hu; omega
  | percent p => simp only [Budget.UpTo, IsCeilPercent] at hs hu; omega

/-- C114: In every execution of all controllers – any number of old sets, of machines, of runs in any order, with calls of the deployment controller failing at any point – a rolling
update never leaves more machines, not counting those being deleted, than `replicas + maxSurge`, or than there were or were wanted before, provided that no run of the
deployment controller sees a status that is behind (`Watchful`). -/
theorem C114_living_partial (d : FDep) (hd : Rolls d) (b : Budget) (hb : b.Parses) (h1 : d.spec.maxSurge = some b.manifest) (s : Int) (hs : b.UpTo d.spec.replicas s)
    (w w' : World) (hw : Ready d w) (h : Runs (Watchful livesOf (d.spec.replicas + s) d) d w w') : livingAll w' ≤ max (d.spec.replicas + s) (extent livesOf w) := by
  have := (runs_living hd (surge_of hb h1 hs) hw h).2
  have := living_extent w'
  omega

/-- C114: the same for all machines, also those being deleted, if no machine is broken and sets that lack machines have none being deleted. -/
theorem C114_machines_partial (d : FDep) (hd : Rolls d) (b : Budget) (hb : b.Parses) (h1 : d.spec.maxSurge = some b.manifest) (s : Int) (hs : b.UpTo d.spec.replicas s)
    (w w' : World) (hw : Ready d w) (hse : ∀ n, Fleet.Settled (w.fleet n)) (ht : Tidy d w) (h : Runs (Watchful allOf (d.spec.replicas + s) d) d w w') :
    machinesAll w' ≤ max (d.spec.replicas + s) (extent allOf w) := by
  have := (runs_total hd (surge_of hb h1 hs) hw hse ht h).2.2.2
  have := total_extent w'
  omega

/-- C114: a status that is written now counts all machines, so that runs which see nothing older, while no set lacks machines, are watchful. -/
theorem C114_report_exact (w : World) (n : String) : ∀ f ∈ (w.report n).sets, f.set.name = n → f.status = allOf (w.fleet n) ∧ f.observed = f.generation := by
  intro f hf hn
  unfold World.report at hf
  obtain ⟨g, hg, rfl⟩ := List.mem_map.1 hf
  split at hn
  case isFalse h => rw [if_neg h] at *; exact absurd hn h
  case isTrue h =>
    rw [if_pos h]
    unfold observed statusOf Status.calcSet allOf
    simp

/-! ### Where the ceiling gives way -/

/-- everything that is seen is true -/
def Exact (w : World) (seen : List FSet) : Prop := ∀ f ∈ seen, f.status = allOf (w.fleet f.set.name) ∧ f.set.avail = serving (w.fleet f.set.name)

/-- nothing is wrong in the beginning: there are as many machines as wanted, all of them serve, and none is being deleted -/
structure Fair (d : FDep) (w : World) : Prop where
  ready : Ready d w
  settled : ∀ n, Fleet.Settled (w.fleet n)
  serve : ∀ f ∈ w.sets, f.set.spec = allOf (w.fleet f.set.name) ∧ serving (w.fleet f.set.name) = allOf (w.fleet f.set.name)
  wanted : machinesAll w = d.spec.replicas

/-- five machines `a1` to `a5` -/
def fiveA : List Fleet.M := [mk .running "a1", mk .running "a2", mk .running "a3", mk .running "a4", mk .running "a5"]
/-- five machines of the first template -/
def fiveStart : World := lostStart (5, 5) (0, 0) (0, 0) fiveA [] []

theorem five_calm : Calm lostDep fiveStart := by
  refine lost_calm (fun l hl => ?_) (by decide)
  simp only [List.mem_cons, List.not_mem_nil, or_false] at hl
  rcases hl with rfl | rfl | rfl
  · exact lost_mk [(.running, "a1"), (.running, "a2"), (.running, "a3"), (.running, "a4"), (.running, "a5")] rfl (by unfold NameLike; decide) (by decide)
  · exact lost_mk [] rfl (by simp) (by decide)
  · exact lost_mk [] rfl (by simp) (by decide)

/-- the deployment controller runs without disturbance -/
def rolls (d : FDep) (w : World) : World := w.deploy d (lostEnv true false) w.sets
theorem rolls_run {P : World → List FSet → Prop} {d : FDep} {w : World} (hw : Ready d w) (hx : ∀ f ∈ w.sets, f.set.name ≠ "x") (hp : P w w.sets) : Run P d w (rolls d w) :=
  .deploy _ _ (sees_refl hw.sound) (lost_fine true false hx) hp

/-- the set `n`, which has no machine, makes `k` of them -/
def fills (w : World) (n : String) (k : Nat) : World :=
  w.change n ((w.fleet n).after (Fleet.setRun lostSort 0 { replicas := k } (w.fleet n).ms) ((List.range k).map fun i => Fleet.aMachine (i + 1)))
theorem fills_run {P : World → List FSet → Prop} {d : FDep} {w : World} (n : String) (k : Nat) (hk : k ≤ 100) (h : ∃ f ∈ w.sets, f.set.name = n ∧ f.set.spec = k ∧ f.deleting = false)
    (h0 : (w.fleet n).ms = []) : Run P d w (fills w n k) := by
  obtain ⟨f, hf, rfl, hs, hx⟩ := h
  have hdem : demand f = { replicas := k } := by unfold demand; rw [hs, hx]; rfl
  have hp : ∀ l, (lostSort l).Perm l := fun l => (MachineSet.C03_sort_exists l).1
  have := Run.machines (P := P) (d := d) f .set _ hf (.set lostSort 0 ((List.range k).map fun i => Fleet.aMachine (i + 1)) hp (by
      rw [(Fleet.planned lostSort hp _ (unfrozen _) hx _).1, h0, hdem]
      simp [Fleet.goal]
      omega) (fun m hm => by
      obtain ⟨i, _, rfl⟩ := List.mem_map.1 hm
      exact Fleet.aMachine_fresh _) (by
      rw [h0, List.nil_append, List.map_map]
      refine List.pairwise_map.2 (List.nodup_range.imp fun {a b} hab he => hab ?_)
      have := congrArg (fun x => x.toList.length) (show Fleet.aName (a + 1) = Fleet.aName (b + 1) from he)
      simp only [Fleet.aName_length] at this
      omega))
  rw [hdem] at this
  exact this

theorem Run.ready {P : World → List FSet → Prop} {d : FDep} (hd : Rolls d) {w w' : World} (hw : Ready d w) (h : Run P d w w') : Ready d w' := by
  obtain ⟨l, hst⟩ := h.step
  exact (step_ready hd hw hst).1

def more1 : World := rolls lostDep fiveStart
def more2 : World := rolls lostDep more1
def more3 : World := rolls lostDep more2
def more4 : World := rolls lostDep more3
def more5 : World := rolls lostDep more4
def more6 : World := rolls lostDep more5

/-- **C114** (machines that are not made yet are not counted): everything the deployment controller sees is true, and a set of the current template is there already; but
as long as that set has not made its machines, every run adds the surge again. There are ten machines where six are allowed. -/
theorem C114_not_yet_made_false : ∃ w', Fair lostDep fiveStart ∧ Runs Exact lostDep fiveStart w' ∧ lostDep.spec.replicas + 1 = 6 ∧ livingAll w' = 10 := by
  have c0 := five_calm.ready
  have t1 : Run Exact lostDep fiveStart more1 := rolls_run c0 (by decide +kernel) (by unfold Exact; decide +kernel)
  have c1 := t1.ready lost_rolls c0
  have t2 : Run Exact lostDep more1 more2 := rolls_run c1 (by decide +kernel) (by unfold Exact; decide +kernel)
  have c2 := t2.ready lost_rolls c1
  have t3 : Run Exact lostDep more2 more3 := rolls_run c2 (by decide +kernel) (by unfold Exact; decide +kernel)
  have c3 := t3.ready lost_rolls c2
  have t4 : Run Exact lostDep more3 more4 := rolls_run c3 (by decide +kernel) (by unfold Exact; decide +kernel)
  have c4 := t4.ready lost_rolls c3
  have t5 : Run Exact lostDep more4 more5 := rolls_run c4 (by decide +kernel) (by unfold Exact; decide +kernel)
  have c5 := t5.ready lost_rolls c4
  have t6 : Run Exact lostDep more5 more6 := rolls_run c5 (by decide +kernel) (by unfold Exact; decide +kernel)
  have t7 : Run Exact lostDep more6 (fills more6 "n" 5) := fills_run "n" 5 (by decide) (by decide +kernel) rfl
  exact ⟨_, ⟨c0, five_calm.settled, by decide +kernel, by decide +kernel⟩, ((((((Runs.refl fiveStart).tail t1).tail t2).tail t3).tail t4).tail t5).tail t6 |>.tail t7, rfl, by decide +kernel⟩

/-- a template of which there is no set yet -/
def nextDep : FDep := { lostDep with template := { body := "v4" } }
def first1 : World := rolls nextDep fiveStart

/-- **C114** (the first run): the run that makes the set of the current template hands out the surge twice, once with the new set and once more, because it does not count
the set it has made. There are seven machines where six are allowed. -/
theorem C114_first_run_false : ∃ w', Fair nextDep fiveStart ∧ Runs Exact nextDep fiveStart w' ∧ nextDep.spec.replicas + 1 = 6 ∧ livingAll w' = 7 := by
  have c := five_calm.ready
  have c0 : Ready nextDep fiveStart := by
    refine ⟨⟨c.sound.unique, c.sound.nonneg, c.sound.desired⟩, c.start, c.none, fun f hf he => ?_, fun x hx => ?_⟩
    case refine_2 => exact (by decide +kernel : ∀ f ∈ fiveStart.sets, f.deleting = false) x (cur_mem hx)
    have : ∀ f ∈ fiveStart.sets, equalIgnoreHash f.tmpl nextDep.template = false := by decide +kernel
    rw [this f hf] at he
    cases he
  have t1 : Run Exact nextDep fiveStart first1 := rolls_run c0 (by decide +kernel) (by unfold Exact; decide +kernel)
  have t2 : Run Exact nextDep first1 (fills first1 "x" 2) := fills_run "x" 2 (by decide) (by decide +kernel) rfl
  exact ⟨_, ⟨c0, five_calm.settled, by decide +kernel, by decide +kernel⟩, ((Runs.refl fiveStart).tail t1).tail t2, rfl, by decide +kernel⟩

/-- no surge, and all machines may be missing -/
def zeroDep : FDep := { lostDep with spec := { lostDep.spec with maxSurge := some (.int 0), maxUnavailable := some (.int 5) } }
def from1 : World := rolls zeroDep fiveStart
def from2 : World := rolls zeroDep from1
def from3 : World := rolls zeroDep from2

theorem zero_rolls : Rolls zeroDep := ⟨⟨rfl, rfl, rfl, by decide, by decide, by unfold IsMap; decide⟩, rfl⟩

/-- **C114** (from zero): all old machines are to go first, because no surge is allowed. As soon as all sets are to be empty the next run takes the deployment for one that is scaled
from zero, and gives the set of the current template its full size, whatever machines there are and although the status of the old set still shows them. There are ten
machines where five are allowed. -/
theorem C114_from_zero_false : ∃ w', Fair zeroDep fiveStart ∧ Runs Exact zeroDep fiveStart w' ∧ zeroDep.spec.replicas + 0 = 5 ∧ livingAll w' = 10 := by
  have c := five_calm.ready
  have c0 : Ready zeroDep fiveStart := ⟨⟨c.sound.unique, c.sound.nonneg, c.sound.desired⟩, c.start, c.none, c.templates, c.current⟩
  have t1 : Run Exact zeroDep fiveStart from1 := rolls_run c0 (by decide +kernel) (by unfold Exact; decide +kernel)
  have c1 := t1.ready zero_rolls c0
  have t2 : Run Exact zeroDep from1 from2 := rolls_run c1 (by decide +kernel) (by unfold Exact; decide +kernel)
  have c2 := t2.ready zero_rolls c1
  have t3 : Run Exact zeroDep from2 from3 := rolls_run c2 (by decide +kernel) (by unfold Exact; decide +kernel)
  have t4 : Run Exact zeroDep from3 (fills from3 "n" 5) := fills_run "n" 5 (by decide) (by decide +kernel) rfl
  exact ⟨_, ⟨c0, five_calm.settled, by decide +kernel, by decide +kernel⟩, ((((Runs.refl fiveStart).tail t1).tail t2).tail t3).tail t4, rfl, by decide +kernel⟩

/-! An update within the ceiling: the set of the current template makes one machine, its status is written, and an old set is told to shrink. -/

def under3 : World := fills more2 "n" 1
def under4 : World := under3.report "n"
def under5 : World := rolls lostDep under4

example : ∃ w', Runs (Watchful allOf 6 lostDep) lostDep fiveStart w' ∧ (w'.sets.map fun f => (f.set.name, f.set.spec)) = [("a", 3), ("b", 0), ("n", 1)] ∧ machinesAll w' = 6
    ∧ machinesAll w' ≤ max (lostDep.spec.replicas + 1) (extent allOf fiveStart) := by
  have c0 := five_calm.ready
  have t1 : Run (Watchful allOf 6 lostDep) lostDep fiveStart more1 := rolls_run c0 (by decide +kernel) (by unfold Watchful Noticed; decide +kernel)
  have c1 := t1.ready lost_rolls c0
  have t2 : Run (Watchful allOf 6 lostDep) lostDep more1 more2 := rolls_run c1 (by decide +kernel) (by unfold Watchful Noticed; decide +kernel)
  have c2 := t2.ready lost_rolls c1
  have t3 : Run (Watchful allOf 6 lostDep) lostDep more2 under3 := fills_run "n" 1 (by decide) (by decide +kernel) rfl
  have c3 := t3.ready lost_rolls c2
  have t4 : Run (Watchful allOf 6 lostDep) lostDep under3 under4 := by
    obtain ⟨f, hf, hn⟩ : ∃ f ∈ under3.sets, f.set.name = "n" := by decide +kernel
    have := Run.status (P := Watchful allOf 6 lostDep) (d := lostDep) f hf
    rw [hn] at this; exact this
  have c4 := t4.ready lost_rolls c3
  have t5 : Run (Watchful allOf 6 lostDep) lostDep under4 under5 := rolls_run c4 (by decide +kernel) (by unfold Watchful Noticed; decide +kernel)
  have ts : Runs (Watchful allOf 6 lostDep) lostDep fiveStart under5 := (((((Runs.refl fiveStart).tail t1).tail t2).tail t3).tail t4).tail t5
  have hno : ∀ n, NoneDying (fiveStart.fleet n).ms := by
    intro n m hm
    unfold fiveStart lostStart at hm
    dsimp only at hm
    split at hm
    · revert m; unfold fiveA; decide +kernel
    · simp at hm
  refine ⟨under5, ts, by decide +kernel, by decide +kernel, C114_machines_partial lostDep lost_rolls (.abs 1) trivial rfl 1 rfl fiveStart under5 c0 five_calm.settled ?_ ts⟩
  have hl : ∀ f ∈ fiveStart.sets, (Fleet.lives (fiveStart.fleet f.set.name).ms : Int) ≤ f.set.spec := by decide +kernel
  exact ⟨fun f hf _ _ => hno _, fun n hn _ => ⟨hl n (List.mem_of_find?_eq_some hn), hno _⟩⟩

end MCM.World
