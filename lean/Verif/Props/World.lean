import Verif.Model.World
import Verif.Lemmas.Marks
import Verif.Props.Fleet
/-!
C101: undisturbed, a rollout comes to its end: all machines are of the current template.
-/
namespace MCM.World
open MCM MCM.Dispatch MCM.Rolling MCM.Template

/-! ### Executions -/

/-- what the cache of the deployment controller may show instead of the sets `l`: statuses of another time -/
def Sees (l seen : List FSet) : Prop :=
  List.Forall₂ (fun a b => b = { a with status := b.status, observed := b.observed, set := { a.set with avail := b.set.avail } } ∧ 0 ≤ b.set.avail) l seen

/-- what a step is -/
inductive Lab
  /-- something happens to the machines of this set -/
  | machines (n : String) (l : Fleet.Lab)
  /-- the status of this set is brought up to date -/
  | status (n : String)
  /-- this set is removed -/
  | gone (n : String)
  /-- a run of the deployment controller; a good one sees everything as it is, and its calls succeed -/
  | deploy (good : Bool)
deriving DecidableEq

/-- One step: a run of the machine set controller or of the machine controller changes machines of one set, or a set that is being deleted and has no machines
is removed, or a status is written, or the deployment controller runs. -/
inductive Step (d : FDep) (w : World) : Lab → World → Prop
  | machines (f : FSet) (l : Fleet.Lab) (s' : Fleet.Fleet) : f ∈ w.sets → Fleet.Step (demand f) (w.fleet f.set.name) l s' →
      Step d w (.machines f.set.name l) (w.change f.set.name s')
  | status (f : FSet) : f ∈ w.sets → Step d w (.status f.set.name) (w.report f.set.name)
  | gone (f : FSet) : f ∈ w.sets → f.deleting = true → (w.fleet f.set.name).ms = [] → Step d w (.gone f.set.name) (w.drop f.set.name)
  | poor (e : Dispatch.Env) (seen : List FSet) : Sees w.sets seen → e.Fine seen → Step d w (.deploy false) (w.deploy d e seen)
  | good (e : Dispatch.Env) : e.Fine w.sets → e.Smooth → AllOk e.rolling → e.created = .done →
      (d.spec.strategy = .recreate → ∀ n, e.machines n = (w.fleet n).ms.length) → Step d w (.deploy true) (w.deploy d e w.sets)

inductive Steps (d : FDep) : World → List Lab → World → Prop
  | nil (w : World) : Steps d w [] w
  | cons {w w1 w2 : World} {l : Lab} {ls : List Lab} : Step d w l w1 → Steps d w1 ls w2 → Steps d w (l :: ls) w2

/-- Steps in any order, among them for every set a run of the machine set controller, a run for every machine that is there in the same state of living or dying before and
after, and a status write; and one good run of the deployment controller. Instead, a set may be removed, and must be if it is being deleted and has no machines. -/
def Epoch (d : FDep) (w w' : World) : Prop :=
  ∃ ls, Steps d w ls w' ∧ .deploy true ∈ ls ∧ ∀ f ∈ w.sets, .gone f.set.name ∈ ls ∨
    (f.deleting = true → (w.fleet f.set.name).ms ≠ []) ∧ .machines f.set.name .set ∈ ls ∧ .status f.set.name ∈ ls ∧
    ∀ m ∈ (w.fleet f.set.name).ms, ∀ m' ∈ (w'.fleet f.set.name).ms, m.name = m'.name → m.isDying = m'.isDying → .machines f.set.name (.served m.name) ∈ ls

inductive Epochs (d : FDep) : Nat → World → World → Prop
  | zero (w : World) : Epochs d 0 w w
  | succ {n : Nat} {w w1 w2 : World} : Epoch d w w1 → Epochs d n w1 w2 → Epochs d (n + 1) w w2

/-- sets and machines in order: any number of sets of any templates and sizes with any machines; no machines without a set -/
structure Ready (d : FDep) (w : World) : Prop where
  sound : Sound d w.sets
  start : ∀ n, Fleet.Start (w.fleet n)
  none : ∀ n, (∀ f ∈ w.sets, f.set.name ≠ n) → (w.fleet n).ms = []
  /-- what counts as the same template is the same template; `C16_recognised_iff_partial` says when that is so -/
  templates : ∀ f ∈ w.sets, equalIgnoreHash f.tmpl d.template = true → SameTemplate f.tmpl d.template
  /-- the set of the current template is not being deleted -/
  current : Fresh d w.sets

/-! ### What a step does to sizes -/

theorem sees_agree {l seen : List FSet} (h : Sees l seen) : List.Forall₂ Agree l seen :=
  h.imp fun _ _ hr => by rw [hr.1]; exact ⟨rfl, rfl, rfl, rfl, rfl, rfl, rfl⟩

theorem sees_still {l seen : List FSet} (h : Sees l seen) : List.Forall₂ Still l seen :=
  h.imp fun _ _ hr => by rw [hr.1]; exact ⟨⟨rfl, rfl, rfl, rfl, rfl, rfl, rfl⟩, rfl⟩

theorem sees_refl {P : Prop} {d : FDep} {l : List FSet} (h : SoundIf P d l) : Sees l l := by
  unfold Sees
  have : ∀ l : List FSet, (∀ f ∈ l, 0 ≤ f.set.avail) → Sees l l := by
    intro l
    induction l with
    | nil => intro _; exact .nil
    | cons a l ih => intro h; exact .cons ⟨rfl, h a (by simp)⟩ (ih fun f hf => h f (by simp [hf]))
  exact this l fun f hf => (h.nonneg f hf).2

theorem sees_sound {P : Prop} {d : FDep} {l seen : List FSet} (h : Sees l seen) (hs : SoundIf P d l) : SoundIf P d seen :=
  agree_sound (sees_agree h) hs fun f hf => by obtain ⟨a, _, hr⟩ := mem_forall2 h f hf; exact hr.2

theorem sees_names {l seen : List FSet} (h : Sees l seen) : seen.map (·.set.name) = l.map (·.set.name) :=
  map_forall2 (fun _ _ hr => hr.name) (sees_agree h)

/-- what a run does is what it did to what it saw, but for the statuses -/
theorem restore_still (stored out : List FSet) : List.Forall₂ Still out (restore stored out) := by
  unfold restore
  refine forall2_map _ _ fun a _ => ?_
  split
  · exact ⟨⟨rfl, rfl, rfl, rfl, rfl, rfl, rfl⟩, rfl⟩
  · exact Still.refl a

theorem restore_agree (stored out : List FSet) : List.Forall₂ Agree out (restore stored out) := (restore_still stored out).imp fun _ _ h => h.toAgree

theorem restore_avail {P Q : Prop} {d : FDep} {stored out : List FSet} (h1 : SoundIf P d stored) (h2 : SoundIf Q d out) : ∀ f ∈ restore stored out, 0 ≤ f.set.avail := by
  intro f hf
  unfold restore at hf
  obtain ⟨a, ha, rfl⟩ := List.mem_map.1 hf
  split
  · rename_i s hs; exact (h1.nonneg s (List.mem_of_find?_eq_some hs)).2
  · exact (h2.nonneg a ha).2

/-- an existing set keeps its status -/
theorem restore_status {stored out : List FSet} (hu : Unique stored) {f g : FSet} (hf : f ∈ restore stored out) (hg : g ∈ stored) (h : f.set.name = g.set.name) :
    f.status = g.status ∧ f.set.avail = g.set.avail := by
  unfold restore at hf
  obtain ⟨a, ha, rfl⟩ := List.mem_map.1 hf
  split at h <;> rename_i hs
  · rename_i s
    have h1 := List.mem_of_find?_eq_some hs
    have h2 : s.set.name = a.set.name := by simpa using List.find?_some hs
    have : s = g := unique_eq stored hu s g h1 hg (by rw [h2]; exact h)
    subst this
    exact ⟨rfl, rfl⟩
  · have := List.find?_eq_none.1 hs g hg
    simp [h] at this

theorem keeps_names {d : FDep} (hd : d.deleting = false) {e : Dispatch.Env} {l : List FSet} (hu : Unique l) :
    ∀ f ∈ l, ∃ f' ∈ (reconcile d e l).sets, f'.set.name = f.set.name := by
  intro f hf
  have hmap : ∀ (l l' : List FSet), List.Forall₂ Kept l l' → f ∈ l → ∃ f' ∈ l', f'.set.name = f.set.name := by
    intro l l' h hm
    have : f.set.name ∈ l'.map (·.set.name) := by
      rw [map_forall2 (g := fun f => f.set.name) (fun a b hr => hr.1) h]; exact List.mem_map.2 ⟨f, hm, rfl⟩
    obtain ⟨f', h1, h2⟩ := List.mem_map.1 this
    exact ⟨f', h1, h2⟩
  rcases reconcile_adds d e l hu hd with h | ⟨_, x, _, h⟩
  · exact hmap _ _ h hf
  · exact hmap _ _ h (by simp [hf])

/-- what counts as the same template is the same template -/
def Honest (d : FDep) (l : List FSet) : Prop := ∀ f ∈ l, equalIgnoreHash f.tmpl d.template = true → SameTemplate f.tmpl d.template

theorem honest_forall2 {d : FDep} {R : FSet → FSet → Prop} (hR : ∀ a b, R a b → b.tmpl.labels = a.tmpl.labels ∧ b.tmpl.body = a.tmpl.body) {l l' : List FSet}
    (h : List.Forall₂ R l l') (hh : Honest d l) : Honest d l' := by
  intro f hf he
  obtain ⟨a, ha, hr⟩ := mem_forall2 h f hf
  obtain ⟨h1, h2⟩ := hR a f hr
  unfold equalIgnoreHash at he
  rw [h1, h2] at he
  have := hh a ha he
  unfold SameTemplate at this ⊢
  rw [h1, h2]; exact this

theorem keeps_honest {d : FDep} (hd : Rolls d) {e : Dispatch.Env} {l : List FSet} (hu : Unique l) (hc : ∀ f, e.created ≠ .existing f) (hh : Honest d l) :
    Honest d (reconcile d e l).sets := by
  have hk : ∀ a b, Kept a b → b.tmpl.labels = a.tmpl.labels ∧ b.tmpl.body = a.tmpl.body := fun a b h => h.2
  rcases reconcile_rolls hd.toPlain e l with h | h
  · rw [h]; exact hh
  · rw [h]
    rcases scaleOrRoll_adds d e l hu with h | ⟨_, x, hx, h⟩
    · exact honest_forall2 hk h hh
    · refine honest_forall2 hk h fun f hf he => ?_
      rcases List.mem_append.1 hf with hf | hf
      · exact hh f hf he
      · rw [List.mem_singleton.1 hf]
        rcases hx with hx | hx
        · exact hx.1
        · exact absurd hx (hc x)

theorem agree_body {a b : FSet} (h : Agree a b) : b.tmpl.labels = a.tmpl.labels ∧ b.tmpl.body = a.tmpl.body := by rw [h.tmpl]; exact ⟨rfl, rfl⟩

/-- what the deployment controller does to the sizes -/
theorem deploy_noMore {d : FDep} (hd : Rolls d) {w : World} (hs : Sound d w.sets) {e : Dispatch.Env} {seen : List FSet} (h : Sees w.sets seen) (he : e.Fine seen) :
    NoMore d w.sets (w.deploy d e seen).sets ∧ (∀ b, Below b w.sets → d.spec.replicas ≤ b → Below b (w.deploy d e seen).sets) := by
  have hsn := sees_sound h hs
  obtain ⟨⟨h1, h2⟩, h3⟩ := reconcile_noMore hd he hsn
  obtain ⟨g1, g2⟩ := agree_same (d := d) (sees_agree h)
  obtain ⟨k1, k2⟩ := agree_same (d := d) (restore_agree w.sets (reconcile d e seen).sets)
  refine ⟨⟨agree_sound (restore_agree _ _) h1 (restore_avail hs h1), ?_⟩, fun b hb hr => ?_⟩
  · unfold World.deploy
    dsimp only
    rw [k1, k2, ← g1, ← g2]; exact h2
  · unfold World.deploy
    exact below_specs k2 (h3 b (below_specs g2 hb) hr)

theorem deploy_names {P : Prop} {d : FDep} (hd : d.deleting = false) {w : World} (hs : SoundIf P d w.sets) {e : Dispatch.Env} {seen : List FSet} (h : Sees w.sets seen) :
    ∀ f ∈ w.sets, ∃ f' ∈ (w.deploy d e seen).sets, f'.set.name = f.set.name := by
  intro f hf
  have hm : f.set.name ∈ seen.map (·.set.name) := by rw [sees_names h]; exact List.mem_map.2 ⟨f, hf, rfl⟩
  obtain ⟨g, hg, hn⟩ := List.mem_map.1 hm
  obtain ⟨x, hx, hxn⟩ := keeps_names hd (e := e) (sees_sound h hs).unique g hg
  have : x.set.name ∈ (restore w.sets (reconcile d e seen).sets).map (·.set.name) := by
    rw [map_forall2 (g := fun f => f.set.name) (fun a b hr => hr.name) (restore_agree w.sets (reconcile d e seen).sets)]
    exact List.mem_map.2 ⟨x, hx, rfl⟩
  obtain ⟨y, hy, hyn⟩ := List.mem_map.1 this
  exact ⟨y, hy, by rw [hyn, hxn, ← hn]⟩

theorem report_still (w : World) (n : String) : List.Forall₂ Still w.sets (w.report n).sets := by
  unfold World.report
  refine forall2_map _ _ fun a _ => ?_
  split
  · exact ⟨⟨rfl, rfl, rfl, rfl, rfl, rfl, rfl⟩, rfl⟩
  · exact Still.refl a

theorem report_agree (w : World) (n : String) : List.Forall₂ Agree w.sets (w.report n).sets := (report_still w n).imp fun _ _ h => h.toAgree

theorem report_avail {P : Prop} {d : FDep} {w : World} (h : SoundIf P d w.sets) (n : String) : ∀ f ∈ (w.report n).sets, 0 ≤ f.set.avail := by
  intro f hf
  unfold World.report at hf
  obtain ⟨a, ha, rfl⟩ := List.mem_map.1 hf
  split
  · show 0 ≤ (statusOf a (w.fleet n)).available
    unfold statusOf Status.calcSet
    dsimp only
    omega
  · exact (h.nonneg a ha).2

/-- every number is at most `b` -/
structure Bounded (b : Nat) (w : World) : Prop where
  sets : Below b w.sets
  fleets : ∀ n, Fleet.lives (w.fleet n).ms ≤ b

theorem Start.change {w : World} (h : ∀ n, Fleet.Start (w.fleet n)) {n : String} {s : Fleet.Fleet} (hs : Fleet.Start s) : ∀ m, Fleet.Start ((w.change n s).fleet m) := by
  intro m
  unfold World.change
  dsimp only
  split
  · exact hs
  · exact h m

theorem unfrozen (f : FSet) : (demand f).freezeLabel ≠ "True" := by exact (show ("" : String) ≠ "True" by decide)

theorem deploy_fleet (w : World) (d : FDep) (e : Dispatch.Env) (seen : List FSet) : (w.deploy d e seen).fleet = w.fleet := rfl

/-! ### Removal of sets -/

theorem drop_sound {P : Prop} {d : FDep} {l : List FSet} (hs : SoundIf P d l) (n : String) : SoundIf P d (others l n) :=
  ⟨List.Nodup.sublist (List.filter_sublist.map _) hs.unique, fun f hf => hs.nonneg f (mem_others.1 hf).1, fun p f hf => hs.desired p f (mem_others.1 hf).1⟩

theorem drop_none {w : World} (hn : ∀ n, (∀ f ∈ w.sets, f.set.name ≠ n) → (w.fleet n).ms = []) {x : String} (h0 : (w.fleet x).ms = []) :
    ∀ n, (∀ f ∈ (w.drop x).sets, f.set.name ≠ n) → ((w.drop x).fleet n).ms = [] := by
  intro n h
  show (w.fleet n).ms = []
  by_cases hx : n = x
  · rw [hx]; exact h0
  · exact hn n fun f hf he => h f (mem_others.2 ⟨hf, fun h' => hx (by rw [← he, h'])⟩) he

theorem wanted_sub {a b : List FSet} (h : a.Sublist b) (h0 : ∀ f ∈ b, 0 ≤ f.set.spec) : wanted a ≤ wanted b := by
  unfold wanted
  induction h with
  | slnil => exact Int.le_refl _
  | @cons a b x _ ih =>
    have h1 := ih fun f hf => h0 f (by simp [hf])
    have h2 := h0 x (by simp)
    rw [List.map_cons, List.sum_cons]; omega
  | @cons_cons a b x _ ih =>
    have h1 := ih fun f hf => h0 f (by simp [hf])
    rw [List.map_cons, List.map_cons, List.sum_cons, List.sum_cons]; omega

theorem others_twice (l : List FSet) (a b : String) : (others (others l a) b).Sublist (others l b) := List.filter_sublist.filter _

theorem remaining_drop {d : FDep} {l : List FSet} (hs : Sound d l) (hf : Fresh d l) {f : FSet} (hm : f ∈ l) (hdel : f.deleting = true) :
    remaining d (others l f.set.name) ≤ remaining d l + 1 := by
  unfold remaining
  rw [fresh_drop hs.unique hf hm hdel]
  cases hn : cur d l with
  | none =>
    dsimp only
    have := wanted_sub (List.filter_sublist (l := l) (p := fun g => !(g.set.name == f.set.name))) fun f hf => (hs.nonneg f hf).1
    unfold others
    omega
  | some n =>
    dsimp only
    have h1 : (toWrite d (others l f.set.name) n).toNat ≤ 1 := by cases toWrite d (others l f.set.name) n <;> decide
    have h2 := wanted_sub (others_twice l f.set.name n.set.name) fun f hf => (hs.nonneg f (mem_others.1 hf).1).1
    unfold workOf
    omega

/-- what a step other than a removal does to the list of sets -/
theorem step_evolves {d : FDep} (hd : Plain d) {w w' : World} {l : Lab} (hu : Dispatch.Unique w.sets) (h : Step d w l w') (hl : ∀ n, l ≠ .gone n) :
    ∃ a b, List.Forall₂ Still w.sets a ∧ Evolves d a b ∧ List.Forall₂ Still b w'.sets := by
  have hr : ∀ l : List FSet, List.Forall₂ Still l l := forall2_refl Still.refl
  cases h with
  | machines f l s' hf hst => exact ⟨_, _, hr _, Evolves.refl d _, hr _⟩
  | status f hf => exact ⟨_, _, report_still w f.set.name, Evolves.refl d _, hr _⟩
  | gone f hf h1 h2 => exact absurd rfl (hl _)
  | poor e seen h1 h2 =>
    have hs := sees_still h1
    exact ⟨_, _, hs, reconcile_evolves hd (unique_forall2 (fun _ _ h => h.name) hs hu) h2.unseen h2.fresh h2.cleans, restore_still _ _⟩
  | good e h1 _ _ _ _ => exact ⟨_, _, hr _, reconcile_evolves hd hu h1.unseen h1.fresh h1.cleans, restore_still _ _⟩

/-- what a step does to marks -/
theorem step_slack {d : FDep} (hd : Plain d) {w w' : World} {l : Lab} (hu : Dispatch.Unique w.sets) (hf : Fresh d w.sets) (h : Step d w l w') :
    Fresh d w'.sets ∧ ((∃ n, l = .gone n) ∧ slack d w'.sets + 2 ≤ slack d w.sets ∧ room d w'.sets + 1 ≤ room d w.sets ∨
      (∀ n, l ≠ .gone n) ∧ slack d w'.sets ≤ slack d w.sets ∧ room d w'.sets = room d w.sets ∧
        (specs w'.sets = specs w.sets → slack d w'.sets < slack d w.sets ∨ keys w'.sets = keys w.sets)) := by
  by_cases hl : ∃ n, l = .gone n
  · obtain ⟨n, rfl⟩ := hl
    cases h with
    | gone f hm h1 h2 =>
      refine ⟨fun c hc => hf c ?_, .inl ⟨⟨_, rfl⟩, drop_slack hu hf hm h1⟩⟩
      rw [← fresh_drop hu hf hm h1]; exact hc
  · have hl : ∀ n, l ≠ .gone n := fun n h => hl ⟨n, h⟩
    obtain ⟨a, b, s1, ev, s2⟩ := step_evolves hd hu h hl
    obtain ⟨e1, e2⟩ := still_slack (d := d) s1
    obtain ⟨e3, e4⟩ := still_slack (d := d) s2
    obtain ⟨e5, e6, e7⟩ := evolves_slack ev
    refine ⟨still_fresh s2 (evolves_fresh ev (still_fresh s1 hf)), .inr ⟨hl, by omega, by omega, fun hs => ?_⟩⟩
    have k1 := still_keys s1
    have k2 := still_keys s2
    rw [k2, ← k1, e3, ← e1]
    refine e7 ?_
    rw [keys_specs k1, ← hs, keys_specs k2]

/-- the current set stays the current one -/
theorem step_cur {d : FDep} (hd : Plain d) {w w' : World} {l : Lab} (hu : Dispatch.Unique w.sets) (h : Step d w l w') (hl : ∀ n, l ≠ .gone n) {c : FSet} (hc : cur d w.sets = some c) :
    ∃ c', cur d w'.sets = some c' ∧ c'.set.name = c.set.name := by
  have still : ∀ {a b : List FSet} {c : FSet}, List.Forall₂ Still a b → cur d a = some c → ∃ c', cur d b = some c' ∧ c'.set.name = c.set.name := by
    intro a b c h hc
    rcases cur_forall2 (d := d) (fun a b hr => by rw [hr.tmpl]; exact ⟨rfl, rfl⟩) h with ⟨h1, _⟩ | ⟨x, y, h1, h2, hr⟩
    · rw [h1] at hc; cases hc
    · rw [h1] at hc; cases hc; exact ⟨y, h2, hr.name⟩
  obtain ⟨a, b, s1, ev, s2⟩ := step_evolves hd hu h hl
  obtain ⟨c1, h1, n1⟩ := still s1 hc
  obtain ⟨c2, h2, n2, _⟩ := evolves_cur ev h1
  obtain ⟨c3, h3, n3⟩ := still s2 h2
  exact ⟨c3, h3, by rw [n3, n2, n1]⟩

/-- where the sets come from, when there is a current one -/
theorem step_back {d : FDep} (hd : Plain d) {w w' : World} {l : Lab} (hu : Dispatch.Unique w.sets) (h : Step d w l w') (hl : ∀ n, l ≠ .gone n) {c : FSet} (hc : cur d w.sets = some c) :
    ∀ f' ∈ w'.sets, ∃ f ∈ w.sets, f'.set.name = f.set.name ∧ (f'.deleting = f.deleting ∨ f.set.spec = 0) := by
  intro f' hf'
  obtain ⟨a, b, s1, ev, s2⟩ := step_evolves hd hu h hl
  obtain ⟨g, hg, r2⟩ := mem_forall2 s2 f' hf'
  rcases ev with ev | ⟨h1, _⟩
  · obtain ⟨g0, hg0, r1⟩ := mem_forall2 ev g hg
    obtain ⟨f, hf, r0⟩ := mem_forall2 s1 g0 hg0
    refine ⟨f, hf, by rw [r2.name, r1.kept.1, r0.name], ?_⟩
    rw [r2.mark, ← r0.mark, ← r0.spec]
    cases hb : g.deleting with
    | true =>
      rcases r1.fresh hb with h | h
      · exact .inl h.symm
      · exact .inr h.1
    | false =>
      cases ha : g0.deleting with
      | true => rw [r1.stays ha] at hb; cases hb
      | false => exact .inl rfl
  · rcases cur_forall2 (d := d) (fun a b hr => by rw [hr.tmpl]; exact ⟨rfl, rfl⟩) s1 with ⟨h2, _⟩ | ⟨x, y, _, h3, _⟩
    · rw [h2] at hc; cases hc
    · rw [h1] at h3; cases h3

/-- how a measure of the work in the sets may change: it decreases, or stays with the sizes; the removal of a set may bring back one write -/
def Steady (r : List FSet → Nat) (l : Lab) (a b : List FSet) : Prop :=
  r b < r a ∨ (r b = r a ∧ specs b = specs a) ∨ ((∃ n, l = .gone n) ∧ r b ≤ r a + 1)

theorem goal_le (f : FSet) : Fleet.goal (demand f) ≤ f.set.spec.toNat := by
  unfold Fleet.goal demand
  dsimp only
  split <;> omega

theorem machines_bounded {w : World} {f : FSet} {l : Fleet.Lab} {s' : Fleet.Fleet} (hf : f ∈ w.sets) (hs : Fleet.Start (w.fleet f.set.name))
    (h : Fleet.Step (demand f) (w.fleet f.set.name) l s') {b : Nat} (hb : Bounded b w) : Bounded b (w.change f.set.name s') := by
  refine ⟨hb.sets, fun n => ?_⟩
  unfold World.change
  dsimp only
  split
  · have h1 := Fleet.step_bound (unfrozen _) hs h
    have h2 := hb.sets f hf
    have h3 := hb.fleets f.set.name
    have h4 := goal_le f
    omega
  · exact hb.fleets n

theorem drop_bounded {w : World} {b : Nat} (hb : Bounded b w) (n : String) : Bounded b (w.drop n) := ⟨fun f hf => hb.sets f (mem_others.1 hf).1, hb.fleets⟩

theorem step_ready {d : FDep} (hd : Rolls d) {w w' : World} {l : Lab} (hw : Ready d w) (h : Step d w l w') :
    Ready d w' ∧ Steady (remaining d) l w.sets w'.sets ∧ ∀ b : Nat, d.spec.replicas ≤ b → Bounded b w → Bounded b w' := by
  have hfr := (step_slack hd.toPlain hw.sound.unique hw.current h).1
  have deploy : ∀ (e : Dispatch.Env) (seen : List FSet), Fresh d (w.deploy d e seen).sets → Sees w.sets seen → e.Fine seen → Ready d (w.deploy d e seen) ∧
      Steady (remaining d) l w.sets (w.deploy d e seen).sets ∧ ∀ b : Nat, d.spec.replicas ≤ b → Bounded b w → Bounded b (w.deploy d e seen) := by
    intro e seen hfr h he
    obtain ⟨h1, h2⟩ := deploy_noMore hd hw.sound h he
    refine ⟨⟨h1.1, hw.start, fun n hn => hw.none n fun f hf he => ?_, ?_, hfr⟩, h1.2.elim .inl fun h => .inr (.inl h), fun b hr hb => ⟨h2 b hb.sets hr, hb.fleets⟩⟩
    case refine_2 =>
      exact honest_forall2 (fun _ _ => agree_body) (restore_agree _ _) (keeps_honest hd (sees_sound h hw.sound).unique he.unseen
        (honest_forall2 (fun _ _ => agree_body) (sees_agree h) hw.templates))
    obtain ⟨f', hf', hn'⟩ := deploy_names hd.alive hw.sound (e := e) h f hf
    exact hn f' hf' (by rw [hn', he])
  cases h with
  | machines f l s' hf hst =>
    refine ⟨⟨hw.sound, Start.change hw.start (Fleet.step_start (hw.start _) hst), fun n hn => ?_, hw.templates, hfr⟩, .inr (.inl ⟨rfl, rfl⟩),
      fun b _ hb => machines_bounded hf (hw.start _) hst hb⟩
    unfold World.change
    dsimp only
    rw [if_neg fun h => hn f hf h.symm]; exact hw.none n hn
  | status f hf =>
    obtain ⟨h1, h2⟩ := agree_same (d := d) (report_agree w f.set.name)
    have hs := agree_sound (report_agree w f.set.name) hw.sound (report_avail hw.sound _)
    refine ⟨⟨hs, hw.start, fun n hn => hw.none n fun g hg he => ?_,
      honest_forall2 (fun _ _ => agree_body) (report_agree w f.set.name) hw.templates, hfr⟩, .inr (.inl ⟨h1, h2⟩), fun b hr hb => ⟨below_specs h2 hb.sets, hb.fleets⟩⟩
    have : g.set.name ∈ (w.report f.set.name).sets.map (·.set.name) := by
      rw [map_forall2 (g := fun f => f.set.name) (fun a b hr => hr.name) (report_agree w f.set.name)]; exact List.mem_map.2 ⟨g, hg, rfl⟩
    obtain ⟨y, hy, hyn⟩ := List.mem_map.1 this
    exact hn y hy (by rw [hyn, he])
  | gone f hf h1 h2 =>
    exact ⟨⟨drop_sound hw.sound _, hw.start, drop_none hw.none h2, fun g hg => hw.templates g (mem_others.1 hg).1, hfr⟩,
      .inr (.inr ⟨⟨_, rfl⟩, remaining_drop hw.sound hw.current hf h1⟩), fun b _ hb => drop_bounded hb _⟩
  | poor e seen h1 h2 => exact deploy e seen hfr h1 h2
  | good e h1 _ _ _ _ => exact deploy e w.sets hfr (sees_refl hw.sound) h1

/-! ### What drives an execution to its end -/

/-- every set has its machines -/
def Filled (w : World) : Prop := ∀ f ∈ w.sets, Fleet.Converged (demand f) (w.fleet f.set.name)

/-- no set is being deleted -/
def Quiet (l : List FSet) : Prop := ∀ f ∈ l, f.deleting = false

/-- the sizes are those of the end -/
def Target (d : FDep) (l : List FSet) : Prop := ∃ c, cur d l = some c ∧ c.set.spec = d.spec.replicas ∧ ∀ f ∈ l, f.set.name ≠ c.set.name → f.set.spec = 0

/-- the status of the set `n` says what is there -/
def Right (n : String) (w : World) : Prop := ∀ f ∈ w.sets, f.set.name = n → f.status = f.set.spec ∧ f.set.avail = f.set.spec

/-- An invariant and a measure of the remaining work: no step increases it, a step that changes a size or a mark decreases it, and so does the removal of a set, and a good
run of the deployment controller once machines and statuses have settled – until the sizes are those of the end, and then they stay. -/
structure Drives (d : FDep) (I : World → Prop) (m : List FSet → Nat) : Prop where
  plain : Plain d
  unique : ∀ {w}, I w → Dispatch.Unique w.sets
  nonneg : ∀ {w}, I w → ∀ f ∈ w.sets, 0 ≤ f.set.spec
  start : ∀ {w}, I w → ∀ n, Fleet.Start (w.fleet n)
  fresh : ∀ {w}, I w → Fresh d w.sets
  step : ∀ {w w' l}, I w → Step d w l w' →
    I w' ∧ (m w'.sets < m w.sets ∨ m w'.sets = m w.sets ∧ keys w'.sets = keys w.sets) ∧ ∀ b : Nat, d.spec.replicas ≤ b → Bounded b w → Bounded b w'
  gone : ∀ {w w' n}, I w → Step d w (.gone n) w' → m w'.sets < m w.sets
  good : ∀ {w w'}, I w → Filled w → Quiet w.sets → (∀ f ∈ w.sets, Right f.set.name w) → Step d w (.deploy true) w' → ¬ Target d w.sets → m w'.sets < m w.sets
  keep : ∀ {w w' l}, I w → Target d w.sets → Step d w l w' → Target d w'.sets

theorem spec_unique {l : List FSet} (hu : Unique l) {f : FSet} (hf : f ∈ l) {n : String} {s : Int} (h : (n, s) ∈ specs l) (hn : f.set.name = n) : f.set.spec = s := by
  obtain ⟨g, hg, he⟩ := List.mem_map.1 h
  cases he
  rw [unique_eq l hu f g hf hg hn]

/-- with a measure of the work in the sets -/
theorem drives_of {d : FDep} (hd : Plain d) {I : World → Prop} {r : List FSet → Nat} (unique : ∀ {w}, I w → Dispatch.Unique w.sets) (nonneg : ∀ {w}, I w → ∀ f ∈ w.sets, 0 ≤ f.set.spec)
    (start : ∀ {w}, I w → ∀ n, Fleet.Start (w.fleet n)) (fresh : ∀ {w}, I w → Fresh d w.sets)
    (step : ∀ {w w' l}, I w → Step d w l w' → I w' ∧ Steady r l w.sets w'.sets ∧ ∀ b : Nat, d.spec.replicas ≤ b → Bounded b w → Bounded b w')
    (good : ∀ {w w'}, I w → Filled w → Quiet w.sets → (∀ f ∈ w.sets, Right f.set.name w) → Step d w (.deploy true) w' → 0 < r w.sets → r w'.sets < r w.sets)
    (zero : ∀ {w}, I w → r w.sets = 0 → Target d w.sets) (one : ∀ {w}, I w → Target d w.sets → r w.sets ≤ 1) : Drives d I fun l => r l + slack d l where
  plain := hd
  unique := unique
  nonneg := nonneg
  start := start
  fresh := fresh
  step := by
    intro w w' l hw h
    obtain ⟨h1, h2, h3⟩ := step hw h
    refine ⟨h1, ?_, h3⟩
    rcases (step_slack hd (unique hw) (fresh hw) h).2 with ⟨hg, a, _⟩ | ⟨hg, a, _, b⟩
    · rcases h2 with h | ⟨h, _⟩ | ⟨_, h⟩ <;> exact .inl (by omega)
    · rcases h2 with h | ⟨h, hs⟩ | ⟨⟨n, h⟩, _⟩
      · exact .inl (by omega)
      · rcases b hs with b | b
        · exact .inl (by omega)
        · by_cases hlt : slack d w'.sets < slack d w.sets
          · exact .inl (by omega)
          · exact .inr ⟨by omega, b⟩
      · exact absurd h (hg n)
  gone := by
    intro w w' n hw h
    obtain ⟨_, h2, _⟩ := step hw h
    rcases (step_slack hd (unique hw) (fresh hw) h).2 with ⟨hg, a, _⟩ | ⟨hg, _⟩
    · rcases h2 with h | ⟨h, _⟩ | ⟨_, h⟩ <;> omega
    · exact absurd rfl (hg n)
  good := by
    intro w w' hw hf hq hr st ht
    have h1 := good hw hf hq hr st (Nat.pos_of_ne_zero fun h0 => ht (zero hw h0))
    rcases (step_slack hd (unique hw) (fresh hw) st).2 with ⟨⟨n, hg⟩, _⟩ | ⟨hg, a, _⟩
    · cases hg
    · omega
  keep := by
    intro w w' l hw ht h
    obtain ⟨h1, h2, _⟩ := step hw h
    have hle := one hw ht
    obtain ⟨c, hc, hsize, hz⟩ := ht
    by_cases hg : ∃ n, l = .gone n
    · obtain ⟨n, rfl⟩ := hg
      cases h with
      | gone f hf d1 d2 => exact ⟨c, by rw [← hc]; exact fresh_drop (unique hw) (fresh hw) hf d1, hsize, fun g hg => hz g (mem_others.1 hg).1⟩
    · have hg : ∀ n, l ≠ .gone n := fun n h => hg ⟨n, h⟩
      have same : specs w'.sets = specs w.sets → Target d w'.sets := by
        intro hs
        obtain ⟨c', hc', hn'⟩ := step_cur hd (unique hw) h hg hc
        refine ⟨c', hc', ?_, fun f hf hne => ?_⟩
        · rw [← hsize]
          exact (spec_unique (unique hw) (cur_mem hc) (by rw [← hs]; exact List.mem_map.2 ⟨c', cur_mem hc', rfl⟩) hn'.symm).symm
        · have hm : (f.set.name, f.set.spec) ∈ specs w.sets := by rw [← hs]; exact List.mem_map.2 ⟨f, hf, rfl⟩
          obtain ⟨g, hg, he⟩ := List.mem_map.1 hm
          injection he with e1 e2
          rw [← e2]
          exact hz g hg (by rw [e1, ← hn']; exact hne)
      rcases h2 with h2 | ⟨_, hs⟩ | ⟨⟨n, h2⟩, _⟩
      · exact zero h1 (by omega)
      · exact same hs
      · exact absurd h2 (hg n)

theorem steps_keep {d : FDep} {I : World → Prop} {m : List FSet → Nat} (D : Drives d I m) {w w' : World} {ls : List Lab} (hw : I w) (h : Steps d w ls w') :
    I w' ∧ m w'.sets ≤ m w.sets ∧ ∀ b : Nat, d.spec.replicas ≤ b → Bounded b w → Bounded b w' := by
  induction h with
  | nil _ => exact ⟨hw, Nat.le_refl _, fun _ _ h => h⟩
  | cons h1 _ ih =>
    obtain ⟨a1, a2, a3⟩ := D.step hw h1
    obtain ⟨b1, b2, b3⟩ := ih a1
    refine ⟨b1, ?_, fun b hr hb => b3 b hr (a3 b hr hb)⟩
    rcases a2 with h | h <;> omega

theorem epochs_keep {d : FDep} {I : World → Prop} {m : List FSet → Nat} (D : Drives d I m) {w w' : World} {n : Nat} (hw : I w) (h : Epochs d n w w') :
    I w' ∧ m w'.sets ≤ m w.sets ∧ ∀ b : Nat, d.spec.replicas ≤ b → Bounded b w → Bounded b w' := by
  induction h with
  | zero _ => exact ⟨hw, Nat.le_refl _, fun _ _ h => h⟩
  | succ h1 _ ih =>
    obtain ⟨ls, h1, _⟩ := h1
    obtain ⟨a1, a2, a3⟩ := steps_keep D hw h1
    obtain ⟨b1, b2, b3⟩ := ih a1
    exact ⟨b1, by omega, fun b hr hb => b3 b hr (a3 b hr hb)⟩

theorem steps_gone {d : FDep} {I : World → Prop} {m : List FSet → Nat} (D : Drives d I m) {w w' : World} {ls : List Lab} (hw : I w) (h : Steps d w ls w') {n : String}
    (hg : .gone n ∈ ls) : m w'.sets < m w.sets := by
  induction h with
  | nil _ => cases hg
  | cons h1 h2 ih =>
    obtain ⟨a1, a2, _⟩ := D.step hw h1
    rcases List.mem_cons.1 hg with rfl | hg
    · have := D.gone hw h1
      have := (steps_keep D a1 h2).2.1
      omega
    · have := ih a1 hg
      rcases a2 with h | h <;> omega

theorem Epochs.split {d : FDep} {a : Nat} : ∀ {b : Nat} {s s' : World}, Epochs d (b + a) s s' → ∃ s1, Epochs d b s s1 ∧ Epochs d a s1 s' := by
  intro b
  induction b with
  | zero => intro s s' h; rw [Nat.zero_add] at h; exact ⟨s, .zero s, h⟩
  | succ b ih =>
    intro s s' h
    rw [show b + 1 + a = (b + a) + 1 from by omega] at h
    cases h with
    | succ h1 h2 =>
      obtain ⟨s1, h3, h4⟩ := ih h2
      exact ⟨s1, .succ h1 h3, h4⟩


/-! ### While the sizes stay the same -/

/-- what happened to the machines of one set -/
def proj (n : String) (ls : List Lab) : List Fleet.Lab :=
  ls.filterMap fun | .machines m l => if m = n then some l else none | _ => none

theorem mem_proj {n : String} {ls : List Lab} {l : Fleet.Lab} (h : .machines n l ∈ ls) : l ∈ proj n ls :=
  List.mem_filterMap.2 ⟨_, h, by simp⟩

theorem demand_congr {f g : FSet} (h1 : g.set.spec = f.set.spec) (h2 : g.deleting = f.deleting) : demand g = demand f := by unfold demand; rw [h1, h2]

theorem step_proj {d : FDep} {w w' : World} {l : Lab} (hu : Dispatch.Unique w.sets) (h : Step d w l w') {f : FSet} (hm : f ∈ w.sets) :
    Fleet.Steps (demand f) (w.fleet f.set.name) (proj f.set.name [l]) (w'.fleet f.set.name) := by
  cases h with
  | machines g l s' hg hst =>
    by_cases hn : g.set.name = f.set.name
    · obtain rfl := unique_eq w.sets hu g f hg hm hn
      have h1 : proj g.set.name [.machines g.set.name l] = [l] := by simp [proj]
      have h2 : (w.change g.set.name s').fleet g.set.name = s' := by simp [World.change]
      rw [h1, h2]
      exact .cons hst (.nil _)
    · have h1 : proj f.set.name [.machines g.set.name l] = [] := by simp [proj, hn]
      have h2 : (w.change g.set.name s').fleet f.set.name = w.fleet f.set.name := by simp [World.change, Ne.symm hn]
      rw [h1, h2]
      exact .nil _
  | status g hg => exact .nil _
  | gone g hg h1 h2 => exact .nil _
  | poor e seen h1 h2 => exact .nil _
  | good e h1 _ _ _ _ => exact .nil _

theorem _root_.MCM.Fleet.Steps.append {ms : MachineSet.MSet} {s s1 s2 : Fleet.Fleet} {a b : List Fleet.Lab} (h1 : Fleet.Steps ms s a s1) (h2 : Fleet.Steps ms s1 b s2) :
    Fleet.Steps ms s (a ++ b) s2 := by
  induction h1 with
  | nil _ => exact h2
  | cons h _ ih => exact .cons h (ih h2)


theorem steps_proj {d : FDep} {I : World → Prop} {m : List FSet → Nat} (D : Drives d I m) {w w' : World} {ls : List Lab} (hw : I w) (h : Steps d w ls w') (hr : m w'.sets = m w.sets) :
    keys w'.sets = keys w.sets ∧ ∀ f ∈ w.sets, Fleet.Steps (demand f) (w.fleet f.set.name) (proj f.set.name ls) (w'.fleet f.set.name) := by
  induction h with
  | nil _ => exact ⟨rfl, fun f _ => .nil _⟩
  | @cons w w1 w2 l ls h1 h2 ih =>
    obtain ⟨a1, a2, _⟩ := D.step hw h1
    have b2 := (steps_keep D a1 h2).2.1
    rcases a2 with h | ⟨h3, h4⟩
    · omega
    · obtain ⟨i1, i2⟩ := ih a1 (by omega)
      refine ⟨by rw [i1, h4], fun f hm => ?_⟩
      have hp : proj f.set.name (l :: ls) = proj f.set.name [l] ++ proj f.set.name ls := by
        unfold proj
        rw [← List.filterMap_append]; rfl
      rw [hp]
      obtain ⟨g, hg, e1, e2, e3⟩ := keys_mem h4 hm
      have := i2 g hg
      rw [e1, demand_congr e2 e3] at this
      exact (step_proj (D.unique hw) h1 hm).append this

theorem epoch_proj {d : FDep} {I : World → Prop} {m : List FSet → Nat} (D : Drives d I m) {w w' : World} (hw : I w) (h : Epoch d w w') (hr : m w'.sets = m w.sets) :
    keys w'.sets = keys w.sets ∧ ∀ f ∈ w.sets, Fleet.Epoch (demand f) (w.fleet f.set.name) (w'.fleet f.set.name) := by
  obtain ⟨ls, h1, _, h2⟩ := h
  obtain ⟨h3, h4⟩ := steps_proj D hw h1 hr
  refine ⟨h3, fun f hm => ⟨_, h4 f hm, ?_⟩⟩
  rcases h2 f hm with hg | ⟨_, k1, _, k2⟩
  · have := steps_gone D hw h1 hg; omega
  · exact ⟨mem_proj k1, fun m hm m' hm' e1 e2 => mem_proj (k2 m hm m' hm' e1 e2)⟩

theorem epochs_proj {d : FDep} {I : World → Prop} {m : List FSet → Nat} (D : Drives d I m) {k : Nat} {w w' : World} (hw : I w) (h : Epochs d k w w') (hr : m w'.sets = m w.sets) :
    keys w'.sets = keys w.sets ∧ ∀ f ∈ w.sets, Fleet.Epochs (demand f) k (w.fleet f.set.name) (w'.fleet f.set.name) := by
  induction h with
  | zero _ => exact ⟨rfl, fun f _ => .zero _⟩
  | @succ k w w1 w2 h1 h2 ih =>
    have a1 : I w1 ∧ m w1.sets ≤ m w.sets := by
      obtain ⟨ls, h, _⟩ := h1
      obtain ⟨x, y, _⟩ := steps_keep D hw h
      exact ⟨x, y⟩
    have b2 := (epochs_keep D a1.1 h2).2.1
    obtain ⟨p1, p2⟩ := epoch_proj D hw h1 (by omega)
    obtain ⟨i1, i2⟩ := ih a1.1 (by omega)
    refine ⟨by rw [i1, p1], fun f hm => ?_⟩
    obtain ⟨g, hg, e1, e2, e3⟩ := keys_mem p1 hm
    have := i2 g hg
    rw [e1, demand_congr e2 e3] at this
    exact .succ (p2 f hm) this

/-! ### Settled machines, settled statuses -/

theorem filled_steps {d : FDep} {I : World → Prop} {m : List FSet → Nat} (D : Drives d I m) {w w' : World} {ls : List Lab} (hw : I w) (hf : Filled w) (h : Steps d w ls w')
    (hr : m w'.sets = m w.sets) : Filled w' := by
  obtain ⟨h1, h2⟩ := steps_proj D hw h hr
  intro f hm
  obtain ⟨g, hg, e1, e2, e3⟩ := keys_mem h1.symm hm
  have := (hf g hg).steps (unfrozen _) (h2 g hg)
  rw [e1, demand_congr e2 e3] at this
  exact this

theorem quiet_keys {l l' : List FSet} (h : keys l' = keys l) (hq : Quiet l) : Quiet l' := by
  intro f hf
  obtain ⟨g, hg, _, _, e⟩ := keys_mem h.symm hf
  rw [← e]; exact hq g hg

theorem status_converged {f : FSet} {s : Fleet.Fleet} (h0 : 0 ≤ f.set.spec) (hq : f.deleting = false) (h : Fleet.Converged (demand f) s) :
    (statusOf f s).replicas = f.set.spec ∧ (statusOf f s).available = f.set.spec := by
  obtain ⟨h1, h2, _, _⟩ := h.desired
  have hl : (s.ms.length : Int) = f.set.spec := by rw [h1, Fleet.goal_of hq]; unfold demand; dsimp only; omega
  unfold statusOf Status.calcSet
  dsimp only
  rw [List.filter_eq_self.2, List.length_map]
  · exact ⟨hl, hl⟩
  · intro m hm
    obtain ⟨a, ha, rfl⟩ := List.mem_map.1 hm
    obtain ⟨vm, v, x, rfl, hp, _⟩ := h2 a ha
    unfold Status.isAvailable counted Fleet.view
    dsimp only
    rw [hp]; rfl

theorem step_right {d : FDep} {I : World → Prop} {m : List FSet → Nat} (D : Drives d I m) {w w' : World} {l : Lab} (hw : I w) (hf : Filled w) (hq : Quiet w.sets) (h : Step d w l w')
    (hs : keys w'.sets = keys w.sets) {n : String} (hr : Right n w ∨ l = .status n) : Right n w' := by
  have deploy : ∀ (e : Dispatch.Env) (seen : List FSet), keys (w.deploy d e seen).sets = keys w.sets → Right n w → Right n (w.deploy d e seen) := by
    intro e seen hs hr f hf hn
    obtain ⟨g, hg, e1, e2, _⟩ := keys_mem hs.symm hf
    obtain ⟨k1, k2⟩ := restore_status (D.unique hw) hf hg e1.symm
    have := hr g hg (by rw [e1, hn])
    rw [k1, k2, ← e2]; exact this
  cases h with
  | machines f l s' hf hst =>
    rcases hr with hr | hr
    · exact hr
    · cases hr
  | status f hfm =>
    intro x hx hn
    unfold World.report at hx
    obtain ⟨a, ha, rfl⟩ := List.mem_map.1 hx
    by_cases hc : a.set.name = f.set.name
    · rw [if_pos hc]
      have hcv := hf a ha
      rw [hc] at hcv
      exact status_converged (D.nonneg hw a ha) (hq a ha) hcv
    · rw [if_neg hc] at hn ⊢
      rcases hr with hr | hr
      · exact hr a ha hn
      · cases hr; exact absurd hn hc
  | gone f hfm h1 h2 => rw [hq f hfm] at h1; cases h1
  | poor e seen h1 h2 =>
    rcases hr with hr | hr
    · exact deploy e seen hs hr
    · cases hr
  | good e h1 _ _ _ _ =>
    rcases hr with hr | hr
    · exact deploy e w.sets hs hr
    · cases hr

theorem steps_right {d : FDep} {I : World → Prop} {m : List FSet → Nat} (D : Drives d I m) {w w' : World} {ls : List Lab} (hw : I w) (hf : Filled w) (hq : Quiet w.sets)
    (h : Steps d w ls w') (hr : m w'.sets = m w.sets) {n : String} (hn : Right n w ∨ .status n ∈ ls) : Right n w' := by
  induction h with
  | nil _ => rcases hn with hn | hn; exact hn; cases hn
  | @cons w w1 w2 l ls h1 h2 ih =>
    obtain ⟨a1, a2, _⟩ := D.step hw h1
    have b2 := (steps_keep D a1 h2).2.1
    have h4 : m w1.sets = m w.sets ∧ keys w1.sets = keys w.sets := by
      rcases a2 with h | h
      · omega
      · exact h
    have hf1 := filled_steps D hw hf (.cons h1 (.nil _)) h4.1
    refine ih a1 hf1 (quiet_keys h4.2 hq) (by omega) ?_
    rcases hn with hn | hn
    · exact .inl (step_right D hw hf hq h1 h4.2 (.inl hn))
    · rcases List.mem_cons.1 hn with hn | hn
      · exact .inl (step_right D hw hf hq h1 h4.2 (.inr hn.symm))
      · exact .inr hn

theorem steps_target {d : FDep} {I : World → Prop} {m : List FSet → Nat} (D : Drives d I m) {w w' : World} {ls : List Lab} (hw : I w) (ht : Target d w.sets) (h : Steps d w ls w') :
    Target d w'.sets := by
  induction h with
  | nil _ => exact ht
  | cons h1 _ ih => exact ih (D.step hw h1).1 (D.keep hw ht h1)

/-- a good run gets on, unless the sizes are those of the end -/
theorem good_step {d : FDep} {I : World → Prop} {m : List FSet → Nat} (D : Drives d I m) {w w' : World} {ls : List Lab} (hw : I w)
    (hf : Filled w) (hq : Quiet w.sets) (hall : ∀ f ∈ w.sets, Right f.set.name w) (h : Steps d w ls w') (hg : .deploy true ∈ ls) (hm : m w'.sets = m w.sets) :
    Target d w'.sets := by
  induction h with
  | nil _ => cases hg
  | @cons w w1 w2 l ls st h2 ih =>
    obtain ⟨a1, a2, _⟩ := D.step hw st
    have b2 := (steps_keep D a1 h2).2.1
    by_cases ht : Target d w.sets
    · exact steps_target D a1 (D.keep hw ht st) h2
    · rcases a2 with h | ⟨h3, h4⟩
      · omega
      · rcases List.mem_cons.1 hg with hl | hl
        · subst hl
          have := D.good hw hf hq hall st ht
          omega
        · refine ih a1 (filled_steps D hw hf (.cons st (.nil _)) h3) (quiet_keys h4 hq) (fun f hfm => ?_) hl (by omega)
          obtain ⟨g, hg, e1, _, _⟩ := keys_mem h4.symm hfm
          rw [← e1]
          exact step_right D hw hf hq st h4 (.inl (hall g hg))

theorem filled_of {d : FDep} {I : World → Prop} {m : List FSet → Nat} (D : Drives d I m) {w w' : World} (hw : I w) {k n : Nat} (hb : Bounded (100 * k) w)
    (hn : k + 9 ≤ n) (h : Epochs d n w w') (hc : m w'.sets = m w.sets) : Filled w' := by
  obtain ⟨h1, h2⟩ := epochs_proj D hw h hc
  intro f hf
  obtain ⟨g, hg, e1, e2, e3⟩ := keys_mem h1.symm hf
  have hgoal : Fleet.goal (demand g) ≤ 100 * k := by
    have h1 := hb.sets g hg
    have h2 := goal_le g
    omega
  have := Fleet.converges (unfrozen _) (D.start hw _) hgoal (hb.fleets _) hn (h2 g hg)
  rw [e1, demand_congr e2 e3] at this
  exact this

/-- with its machines gone, a set that is being deleted is removed -/
theorem filled_quiet {d : FDep} {I : World → Prop} {m : List FSet → Nat} (D : Drives d I m) {w w' : World} (hw : I w) (hf : Filled w) (h : Epoch d w w') (hm : m w'.sets = m w.sets) :
    Quiet w.sets := by
  obtain ⟨ls, h1, _, h2⟩ := h
  intro f hfm
  cases hd : f.deleting with
  | false => rfl
  | true =>
    rcases h2 f hfm with hg | ⟨hg, _⟩
    · have := steps_gone D hw h1 hg; omega
    · have := (hf f hfm).desired.1
      unfold Fleet.goal demand at this
      dsimp only at this
      rw [if_pos hd] at this
      exact absurd (List.length_eq_zero_iff.1 this) (hg hd)

/-- when the measure stays for long enough, the end is reached -/
theorem window {d : FDep} {I : World → Prop} {m : List FSet → Nat} (D : Drives d I m) {w w' : World} (hw : I w) {k : Nat}
    (hb : Bounded (100 * k) w) (h : Epochs d (k + 11) w w') (hm : m w'.sets = m w.sets) : Target d w'.sets ∧ Filled w' := by
  rw [show k + 11 = (k + 9) + 2 from rfl] at h
  obtain ⟨wa, ha, h⟩ := h.split
  cases h with
  | succ he1 h =>
    rename_i wb
    cases h with
    | succ he2 h =>
      cases h
      obtain ⟨ra, la, _⟩ := epochs_keep D hw ha
      have he1' := he1
      obtain ⟨l1, s1, g1, c1⟩ := he1
      obtain ⟨l2, s2, g2, c2⟩ := he2
      obtain ⟨rb, lb, _⟩ := steps_keep D ra s1
      have lc := (steps_keep D rb s2).2.1
      have fa := filled_of D hw hb (Nat.le_refl _) ha (by omega)
      have qa := filled_quiet D ra fa he1' (by omega)
      have fb := filled_steps D ra fa s1 (by omega)
      have hk := (steps_proj D ra s1 (by omega)).1
      refine ⟨good_step D rb fb (quiet_keys hk qa) (fun f hf => ?_) s2 g2 (by omega), filled_steps D rb fb s2 (by omega)⟩
      obtain ⟨g, hg, e1, _, _⟩ := keys_mem hk.symm hf
      rw [← e1]
      rcases c1 g hg with hgone | ⟨_, _, hst, _⟩
      · have := steps_gone D ra s1 hgone; omega
      · exact steps_right D ra fa qa s1 (by omega) (.inr hst)

theorem converged_goal {a b : MachineSet.MSet} (h : Fleet.goal b = Fleet.goal a) {s : Fleet.Fleet} (hc : Fleet.Converged a s) : Fleet.Converged b s :=
  ⟨hc.settled, by have := hc.number; unfold Fleet.dist at this ⊢; rw [h]; exact this, hc.done⟩

/-- at the end, machines stay as they are -/
theorem filled_target {d : FDep} {I : World → Prop} {m : List FSet → Nat} (D : Drives d I m) {w w' : World} {l : Lab} (hw : I w) (ht : Target d w.sets) (hf : Filled w)
    (h : Step d w l w') : Filled w' := by
  have ht' := D.keep hw ht h
  by_cases hg : ∃ n, l = .gone n
  · obtain ⟨n, rfl⟩ := hg
    cases h with
    | gone f hfm d1 d2 => exact fun g hg => hf g (mem_others.1 hg).1
  · have hg : ∀ n, l ≠ .gone n := fun n h => hg ⟨n, h⟩
    intro f' hf'
    obtain ⟨c, hc, hs, hz⟩ := ht
    obtain ⟨c', hc', hs', hz'⟩ := ht'
    obtain ⟨x, hx, hxn⟩ := step_cur D.plain (D.unique hw) h hg hc
    rw [hc'] at hx; cases hx
    obtain ⟨f, hfm, hn, hdel⟩ := step_back D.plain (D.unique hw) h hg hc f' hf'
    have hsp : f'.set.spec = f.set.spec := by
      by_cases hcn : f.set.name = c.set.name
      · rw [unique_eq w.sets (D.unique hw) f c hfm (cur_mem hc) hcn, hs]
        rw [unique_eq w'.sets (D.unique (D.step hw h).1) f' c' hf' (cur_mem hc') (by rw [hn, hcn, hxn]), hs']
      · rw [hz f hfm hcn, hz' f' hf' (by rw [hn, hxn]; exact hcn)]
    have hst := (hf f hfm).steps (unfrozen _) (step_proj (D.unique hw) h hfm)
    rw [hn]
    refine converged_goal ?_ hst
    rcases hdel with hdel | hdel
    · rw [demand_congr hsp hdel]
    · have : ∀ f : FSet, f.set.spec = 0 → Fleet.goal (demand f) = 0 := fun f h => by
        unfold Fleet.goal demand; dsimp only; rw [h]; split <;> rfl
      rw [this f hdel, this f' (by rw [hsp, hdel])]

/-- the end is the end -/
theorem end_steps {d : FDep} {I : World → Prop} {m : List FSet → Nat} (D : Drives d I m) {w w' : World} {ls : List Lab} (hw : I w) (ht : Target d w.sets) (hf : Filled w)
    (h : Steps d w ls w') : I w' ∧ Target d w'.sets ∧ Filled w' := by
  induction h with
  | nil _ => exact ⟨hw, ht, hf⟩
  | cons h1 _ ih => exact ih (D.step hw h1).1 (D.keep hw ht h1) (filled_target D hw ht hf h1)

theorem end_epochs {d : FDep} {I : World → Prop} {m : List FSet → Nat} (D : Drives d I m) {n : Nat} {w w' : World} (hw : I w) (ht : Target d w.sets) (hf : Filled w)
    (h : Epochs d n w w') : I w' ∧ Target d w'.sets ∧ Filled w' := by
  induction h with
  | zero _ => exact ⟨hw, ht, hf⟩
  | succ h1 _ ih =>
    obtain ⟨ls, h1, _⟩ := h1
    obtain ⟨a, b, c⟩ := end_steps D hw ht hf h1
    exact ih a b c

theorem end_after {d : FDep} {I : World → Prop} {m : List FSet → Nat} (D : Drives d I m) {k : Nat}
    (hr : d.spec.replicas ≤ ((100 * k : Nat) : Int)) : ∀ (r : Nat) {w w' : World}, I w → Bounded (100 * k) w → m w.sets ≤ r →
      Epochs d ((r + 1) * (k + 11)) w w' → I w' ∧ Target d w'.sets ∧ Filled w' := by
  intro r
  induction r with
  | zero =>
    intro w w' hw hb hle h
    rw [Nat.zero_add, Nat.one_mul] at h
    obtain ⟨a, b, _⟩ := epochs_keep D hw h
    obtain ⟨x, y⟩ := window D hw hb h (by omega)
    exact ⟨a, x, y⟩
  | succ r ih =>
    intro w w' hw hb hle h
    rw [show (r + 1 + 1) * (k + 11) = (k + 11) + (r + 1) * (k + 11) from by rw [Nat.add_mul (r + 1) 1, Nat.one_mul, Nat.add_comm]] at h
    obtain ⟨w1, h2, h3⟩ := h.split
    obtain ⟨b1, b2, b3⟩ := epochs_keep D hw h2
    by_cases hm : m w1.sets = m w.sets
    · obtain ⟨x, y⟩ := window D hw hb h2 hm
      exact end_epochs D b1 x y h3
    · exact ih b1 (b3 _ hr hb) (by omega) h3

/-! ### The rollout ends -/

/-- all machines are of the template of the deployment: one set, which is not being deleted, has the desired number of machines, all Running with one VM each, and no
other set has any machine; no VM is without a machine -/
def RolledOut (d : FDep) (w : World) : Prop :=
  ∃ c ∈ w.sets, SameTemplate c.tmpl d.template ∧ c.deleting = false ∧ (∀ f ∈ w.sets, f.set.spec = if f.set.name = c.set.name then d.spec.replicas else 0) ∧
    ((w.fleet c.set.name).ms.length : Int) = d.spec.replicas ∧ (∀ m ∈ (w.fleet c.set.name).ms, Fleet.Desired m) ∧
    (∀ n, n ≠ c.set.name → (w.fleet n).ms = []) ∧ ∀ n, (w.fleet n).orphans = []

theorem rolledOut_of {d : FDep} (hr : 0 ≤ d.spec.replicas) {w : World} (hu : Dispatch.Unique w.sets) (hst : ∀ n, Fleet.Start (w.fleet n))
    (hnone : ∀ n, (∀ f ∈ w.sets, f.set.name ≠ n) → (w.fleet n).ms = []) (hfr : Fresh d w.sets) (hf : Filled w)
    (ht : ∀ c, cur d w.sets = some c → SameTemplate c.tmpl d.template) (htar : Target d w.sets) : RolledOut d w := by
  obtain ⟨c, hc, h2, h3⟩ := htar
  have hcm := cur_mem hc
  have hcc := hf c hcm
  refine ⟨c, hcm, ht c hc, hfr c hc, fun f hfm => ?_, ?_, hcc.desired.2.1, fun n hn => ?_, fun n => (hst n).orphans⟩
  · split
    · rename_i hn
      rw [unique_eq w.sets hu f c hfm hcm hn, h2]
    · rename_i hn; exact h3 f hfm hn
  · rw [hcc.desired.1, Fleet.goal_of (hfr c hc)]; unfold demand; dsimp only; omega
  · by_cases hx : ∃ f ∈ w.sets, f.set.name = n
    · obtain ⟨f, hfm, rfl⟩ := hx
      have hl := (hf f hfm).desired.1
      have := goal_le f
      rw [h3 f hfm hn] at this
      exact List.length_eq_zero_iff.1 (by omega)
    · exact hnone n fun f hfm he => hx ⟨f, hfm, he⟩

theorem Ready.rolledOut {d : FDep} (hd : Rolls d) {w : World} (hw : Ready d w) (ht : Target d w.sets) (hf : Filled w) : RolledOut d w :=
  rolledOut_of hd.size.1 hw.sound.unique hw.start hw.none hw.current hf (fun c hc => hw.templates c (cur_mem hc) (cur_match hc)) ht

theorem wanted_split {n : FSet} : ∀ {l : List FSet}, Unique l → n ∈ l → wanted l = wanted (others l n.set.name) + n.set.spec := by
  intro l
  induction l with
  | nil => intro _ h; cases h
  | cons a l ih =>
    intro hu hm
    have hu' := hu
    unfold Dispatch.Unique at hu
    rw [List.map_cons, List.nodup_cons] at hu
    by_cases ha : a.set.name = n.set.name
    · have : a = n := unique_eq _ hu' a n (by simp) hm ha
      subst this
      have : others (a :: l) a.set.name = l := by
        unfold others
        rw [List.filter_cons]
        simp only [beq_self_eq_true, Bool.not_true, Bool.false_eq_true, if_false]
        refine List.filter_eq_self.2 fun f hf => ?_
        have : f.set.name ≠ a.set.name := fun h => hu.1 (List.mem_map.2 ⟨f, hf, h⟩)
        simpa using this
      rw [this]
      unfold wanted
      rw [List.map_cons, List.sum_cons]; omega
    · have hml : n ∈ l := by
        rcases List.mem_cons.1 hm with h | h
        · exact absurd (by rw [h]) ha
        · exact h
      have := ih hu.2 hml
      have h2 : others (a :: l) n.set.name = a :: others l n.set.name := by
        unfold others
        rw [List.filter_cons, if_pos (by simpa using ha)]
      rw [h2]
      unfold wanted at this ⊢
      rw [List.map_cons, List.sum_cons, List.map_cons, List.sum_cons]; omega

theorem remaining_le {d : FDep} {l : List FSet} (hs : Sound d l) (hr : 0 ≤ d.spec.replicas) : remaining d l ≤ 2 + (wanted l + d.spec.replicas).toNat := by
  unfold remaining
  cases hn : cur d l with
  | none => exact Nat.le_refl _
  | some n =>
    dsimp only
    have h1 := wanted_split hs.unique (cur_mem hn)
    have h2 := (hs.nonneg n (cur_mem hn)).1
    have h3 : (toWrite d l n).toNat ≤ 1 := by cases toWrite d l n <;> decide
    unfold workOf
    omega


theorem slack_le (d : FDep) (l : List FSet) : slack d l ≤ 3 * l.length + 3 := by
  have h1 : unmarked l ≤ l.length := List.countP_le_length
  have h2 : vacant d l ≤ 1 := by unfold vacant; split <;> omega
  unfold slack room
  omega

theorem remaining_target {d : FDep} {l : List FSet} (ht : Target d l) : remaining d l ≤ 1 := by
  obtain ⟨c, hc, h1, h2⟩ := ht
  unfold remaining
  rw [hc]
  dsimp only
  have h3 : (toWrite d l c).toNat ≤ 1 := by cases toWrite d l c <;> decide
  have h4 : wanted (others l c.set.name) = 0 := by
    have : ∀ x : List FSet, (∀ f ∈ x, f.set.spec = 0) → wanted x = 0 := by
      intro x
      induction x with
      | nil => intro _; rfl
      | cons a x ih =>
        intro h
        have := ih fun f hf => h f (by simp [hf])
        have h0 := h a (by simp)
        unfold wanted at this ⊢
        rw [List.map_cons, List.sum_cons, h0, this]; rfl
    exact this _ fun f hf => h2 f (mem_others.1 hf).1 (mem_others.1 hf).2
  unfold workOf
  omega

/-- the population is of a size that `k` runs of the machine set controller can deal with -/
def Within (k : Nat) (d : FDep) (w : World) : Prop :=
  d.spec.replicas ≤ 100 * k ∧ (∀ f ∈ w.sets, f.set.spec ≤ 100 * k) ∧ ∀ n, (w.fleet n).ms.length ≤ 100 * k

theorem Within.bounded {k : Nat} {d : FDep} {w : World} (h : Within k d w) : d.spec.replicas ≤ ((100 * k : Nat) : Int) ∧ Bounded (100 * k) w := by
  refine ⟨by have := h.1; omega, fun f hf => by have := h.2.1 f hf; omega, fun n => Nat.le_trans (List.length_filter_le _ _) (h.2.2 n)⟩

/-- the end is reached -/
theorem ends {d : FDep} {I : World → Prop} {m : List FSet → Nat} (D : Drives d I m) {w w' : World} (hw : I w) {k n R : Nat} (hk : Within k d w) (hR : m w.sets ≤ R)
    (hn : (R + 1) * (k + 11) ≤ n) (h : Epochs d n w w') : I w' ∧ Target d w'.sets ∧ Filled w' := by
  obtain ⟨hr, hb⟩ := hk.bounded
  obtain ⟨r, rfl⟩ : ∃ r, n = (R + 1) * (k + 11) + r := ⟨n - (R + 1) * (k + 11), by omega⟩
  obtain ⟨w1, e1, e2⟩ := h.split
  obtain ⟨a, b, c⟩ := end_after D hr R hw hb hR e1
  exact end_epochs D a b c e2

/-- rolling updates are driven to their end -/
theorem rolls_drives {d : FDep} (hd : Rolls d) (hsel : d.selectsAll = false) {surge unav : Int} (hsu : scaledValue d.spec.maxSurge d.spec.replicas true = some surge)
    (hun : scaledValue d.spec.maxUnavailable d.spec.replicas false = some unav) (h0 : 0 ≤ surge) (h1 : 0 ≤ unav) : Drives d (Ready d) fun l => remaining d l + slack d l := by
  refine drives_of hd.toPlain (fun hw => hw.sound.unique) (fun hw f hf => (hw.sound.nonneg f hf).1) (fun hw => hw.start) (fun hw => hw.current) (fun hw h => step_ready hd hw h)
    ?_ (fun hw hz => remaining_zero hw.sound hz) (fun _ ht => remaining_target ht)
  intro w w' hw hf hq hall st hpos
  cases st with
  | good e e1 e2 e3 e4 _ =>
    have := reconcile_less hd hsel hsu hun h0 h1 e1 e2 e3 e4 hw.sound (fun f hf => hall f hf f hf rfl) hpos
    have hk := (agree_same (d := d) (restore_agree w.sets (reconcile d e w.sets).sets)).1
    unfold World.deploy
    dsimp only
    omega

theorem rolls_measure {d : FDep} (hr : 0 ≤ d.spec.replicas) {w : World} (hw : Ready d w) :
    remaining d w.sets + slack d w.sets ≤ (wanted w.sets + d.spec.replicas).toNat + 3 * w.sets.length + 5 := by
  have h1 := remaining_le hw.sound hr
  have h2 := slack_le d w.sets
  omega

/-- C101: From any state of a rollout – any number of machine sets of old templates, of any sizes, some of them being deleted, with or without a set of the current template,
with machines in any phase, being created or deleted, healthy or failed – the controllers together, undisturbed and in any order, with statuses as stale as can be between the
good runs, come to the end: exactly `replicas` machines, all of the current template, all Running with one VM each; no machine of an old template; no VM without a machine. -/
theorem C101_rollout_ends (d : FDep) (hd : Rolls d) (hsel : d.selectsAll = false) (surge unav : Int) (hsu : scaledValue d.spec.maxSurge d.spec.replicas true = some surge)
    (hun : scaledValue d.spec.maxUnavailable d.spec.replicas false = some unav) (h0 : 0 ≤ surge) (h1 : 0 ≤ unav) (w w' : World) (hw : Ready d w) (k n : Nat)
    (hk : Within k d w) (hn : ((wanted w.sets + d.spec.replicas).toNat + 3 * w.sets.length + 6) * (k + 11) ≤ n) (h : Epochs d n w w') : RolledOut d w' := by
  obtain ⟨a, b, c⟩ := ends (rolls_drives hd hsel hsu hun h0 h1) hw hk (rolls_measure hd.size.1 hw) hn h
  exact a.rolledOut hd b c

/-- C101: and it stays at the end, whatever runs follow, however stale the statuses they see. -/
theorem C101_stays (d : FDep) (hd : Rolls d) (hsel : d.selectsAll = false) (surge unav : Int) (hsu : scaledValue d.spec.maxSurge d.spec.replicas true = some surge)
    (hun : scaledValue d.spec.maxUnavailable d.spec.replicas false = some unav) (h0 : 0 ≤ surge) (h1 : 0 ≤ unav) (w w1 w2 : World) (hw : Ready d w) (k n : Nat)
    (hk : Within k d w) (hn : ((wanted w.sets + d.spec.replicas).toNat + 3 * w.sets.length + 6) * (k + 11) ≤ n) (h : Epochs d n w w1) (ls : List Lab) (h' : Steps d w1 ls w2) :
    RolledOut d w2 := by
  have D := rolls_drives hd hsel hsu hun h0 h1
  obtain ⟨a, b, c⟩ := ends D hw hk (rolls_measure hd.size.1 hw) hn h
  obtain ⟨x, y, z⟩ := end_steps D a b c h'
  exact x.rolledOut hd y z

/-- at the end no set comes back -/
theorem end_absent {d : FDep} {I : World → Prop} {m : List FSet → Nat} (D : Drives d I m) {w w' : World} {ls : List Lab} (hw : I w) (ht : Target d w.sets)
    (h : Steps d w ls w') {n : String} (hn : (∀ f ∈ w.sets, f.set.name ≠ n) ∨ .gone n ∈ ls) : ∀ f ∈ w'.sets, f.set.name ≠ n := by
  induction h with
  | nil _ => rcases hn with hn | hn; exact hn; cases hn
  | @cons w w1 w2 l ls h1 h2 ih =>
    refine ih (D.step hw h1).1 (D.keep hw ht h1) ?_
    rcases hn with hn | hn
    · left
      by_cases hg : ∃ n, l = .gone n
      · obtain ⟨n, rfl⟩ := hg
        cases h1 with
        | gone f hf _ _ => exact fun g hg => hn g (mem_others.1 hg).1
      · have hg : ∀ n, l ≠ .gone n := fun n h => hg ⟨n, h⟩
        obtain ⟨c, hc, _⟩ := ht
        intro f' hf' he
        obtain ⟨f, hf, e, _⟩ := step_back D.plain (D.unique hw) h1 hg hc f' hf'
        exact hn f hf (by rw [← e, he])
    · rcases List.mem_cons.1 hn with rfl | hn
      · left
        cases h1 with
        | gone f hf _ _ => exact fun g hg => (mem_others.1 hg).2
      · exact .inr hn

/-- C101: and a machine set that is being deleted then – by a user, or because it is older than the revision history limit allows – is gone after the next epoch. -/
theorem C101_removed (d : FDep) (hd : Rolls d) (hsel : d.selectsAll = false) (surge unav : Int) (hsu : scaledValue d.spec.maxSurge d.spec.replicas true = some surge)
    (hun : scaledValue d.spec.maxUnavailable d.spec.replicas false = some unav) (h0 : 0 ≤ surge) (h1 : 0 ≤ unav) (w w1 w2 : World) (hw : Ready d w) (k n : Nat)
    (hk : Within k d w) (hn : ((wanted w.sets + d.spec.replicas).toNat + 3 * w.sets.length + 6) * (k + 11) ≤ n) (h : Epochs d n w w1) (h' : Epoch d w1 w2)
    (f : FSet) (hf : f ∈ w1.sets) (hx : f.deleting = true) : ∀ g ∈ w2.sets, g.set.name ≠ f.set.name := by
  have D := rolls_drives hd hsel hsu hun h0 h1
  obtain ⟨a, b, c⟩ := ends D hw hk (rolls_measure hd.size.1 hw) hn h
  obtain ⟨ls, s1, _, s2⟩ := h'
  refine end_absent D a b s1 (.inr ?_)
  rcases s2 f hf with hg | ⟨hg, _⟩
  · exact hg
  · have := (c f hf).desired.1
    unfold Fleet.goal demand at this
    dsimp only at this
    rw [if_pos hx] at this
    exact absurd (List.length_eq_zero_iff.1 this) (hg hx)

/-! ### Such epochs can always be made -/

theorem Steps.append {d : FDep} {w w1 w2 : World} {a b : List Lab} (h1 : Steps d w a w1) (h2 : Steps d w1 b w2) : Steps d w (a ++ b) w2 := by
  induction h1 with
  | nil _ => exact h2
  | cons h _ ih => exact .cons h (ih h2)

theorem change_same (w : World) (n : String) : w.change n (w.fleet n) = w := by
  unfold World.change
  have : (fun m => if m = n then w.fleet n else w.fleet m) = w.fleet := by
    funext m; split
    · rename_i h; rw [h]
    · rfl
  rw [this]

theorem change_change (w : World) (n : String) (s s' : Fleet.Fleet) : (w.change n s).change n s' = w.change n s' := by
  unfold World.change
  dsimp only
  have : (fun m => if m = n then s' else if m = n then s else w.fleet m) = fun m => if m = n then s' else w.fleet m := by
    funext m; split <;> rfl
  rw [this]

/-- what can happen to the machines of one set can happen in the whole -/
theorem lift_steps {d : FDep} {f : FSet} {ls : List Fleet.Lab} {s s' : Fleet.Fleet} (h : Fleet.Steps (demand f) s ls s') :
    ∀ {w : World}, f ∈ w.sets → w.fleet f.set.name = s → Steps d w (ls.map (.machines f.set.name)) (w.change f.set.name s') := by
  induction h with
  | nil s => intro w _ hs; rw [← hs, change_same]; exact .nil w
  | @cons s s1 s2 l ls h1 h2 ih =>
    intro w hf hs
    subst hs
    have := ih (w := w.change f.set.name s1) hf (by unfold World.change; simp)
    rw [change_change] at this
    exact .cons (.machines f l s1 hf h1) this

/-- serve the sets `fs` one after the other -/
theorem serve_sets {d : FDep} {S : Fleet.Fleet → Prop} (hS : ∀ ms s, S s → ∃ s', Fleet.Epoch ms s s' ∧ S s') :
    ∀ (fs : List FSet) (w : World), (∀ f ∈ fs, f ∈ w.sets) → (fs.map (·.set.name)).Nodup → (∀ n, S (w.fleet n)) →
    ∃ ls w', Steps d w ls w' ∧ w'.sets = w.sets ∧ (∀ n, (∀ f ∈ fs, f.set.name ≠ n) → w'.fleet n = w.fleet n) ∧ ∀ f ∈ fs, .machines f.set.name .set ∈ ls ∧
      ∀ m ∈ (w.fleet f.set.name).ms, ∀ m' ∈ (w'.fleet f.set.name).ms, m.name = m'.name → m.isDying = m'.isDying → .machines f.set.name (.served m.name) ∈ ls := by
  intro fs
  induction fs with
  | nil => intro w _ _ _; exact ⟨[], w, .nil w, rfl, fun _ _ => rfl, by simp⟩
  | cons f fs ih =>
    intro w hmem hnd hst
    rw [List.map_cons, List.nodup_cons] at hnd
    obtain ⟨s', ⟨l1, h1, h2, h3⟩, hs'⟩ := hS (demand f) (w.fleet f.set.name) (hst _)
    have hl := lift_steps (d := d) h1 (hmem f (by simp)) rfl
    obtain ⟨l2, w', k1, k2, k3, k4⟩ := ih (w.change f.set.name s') (fun g hg => hmem g (by simp [hg])) hnd.2 (fun n => by
      unfold World.change
      dsimp only
      split
      · exact hs'
      · exact hst n)
    have hne : ∀ g ∈ fs, g.set.name ≠ f.set.name := fun g hg he => hnd.1 (List.mem_map.2 ⟨g, hg, he⟩)
    refine ⟨_, w', hl.append k1, k2, fun n hn => ?_, fun g hg => ?_⟩
    · rw [k3 n fun g hg => hn g (by simp [hg])]
      unfold World.change
      dsimp only
      rw [if_neg fun h => hn f (by simp) h.symm]
    · rcases List.mem_cons.1 hg with rfl | hg
      · have hw' : w'.fleet g.set.name = s' := by rw [k3 _ hne]; unfold World.change; simp
        rw [hw']
        exact ⟨List.mem_append.2 (.inl (List.mem_map.2 ⟨_, h2, rfl⟩)),
          fun m hm m' hm' e1 e2 => List.mem_append.2 (.inl (List.mem_map.2 ⟨_, h3 m hm m' hm' e1 e2, rfl⟩))⟩
      · obtain ⟨a, b⟩ := k4 g hg
        have hw : (w.change f.set.name s').fleet g.set.name = w.fleet g.set.name := by unfold World.change; simp [hne g hg]
        rw [hw] at b
        exact ⟨List.mem_append.2 (.inr a), fun m hm m' hm' e1 e2 => List.mem_append.2 (.inr (b m hm m' hm' e1 e2))⟩

theorem report_sets {d : FDep} : ∀ (ns : List String) (w : World), (∀ n ∈ ns, ∃ f ∈ w.sets, f.set.name = n) →
    ∃ ls w', Steps d w ls w' ∧ w'.fleet = w.fleet ∧ keys w'.sets = keys w.sets ∧ ∀ n ∈ ns, .status n ∈ ls := by
  intro ns
  induction ns with
  | nil => intro w _; exact ⟨[], w, .nil w, rfl, rfl, by simp⟩
  | cons n ns ih =>
    intro w h
    obtain ⟨f, hf, rfl⟩ := h _ (List.mem_cons_self ..)
    have hk := still_keys (report_still w f.set.name)
    obtain ⟨ls, w', h1, h2, h3, h4⟩ := ih (w.report f.set.name) (fun n hn => by
      obtain ⟨g, hg, he⟩ := h n (by simp [hn])
      obtain ⟨y, hy, hyn, _⟩ := keys_mem hk hg
      exact ⟨y, hy, by rw [hyn, he]⟩)
    refine ⟨_, w', .cons (.status f hf) h1, h2, by rw [h3, hk], fun n hn => ?_⟩
    rcases List.mem_cons.1 hn with rfl | hn
    · exact List.mem_cons_self ..
    · exact List.mem_cons_of_mem _ (h4 n hn)

/-- remove the sets `fs` one after the other -/
theorem drop_sets {d : FDep} : ∀ (fs : List FSet) (w : World), (∀ f ∈ fs, f ∈ w.sets ∧ f.deleting = true ∧ (w.fleet f.set.name).ms = []) → (fs.map (·.set.name)).Nodup →
    ∃ ls w', Steps d w ls w' ∧ w'.fleet = w.fleet ∧ ∀ f ∈ fs, .gone f.set.name ∈ ls := by
  intro fs
  induction fs with
  | nil => intro w _ _; exact ⟨[], w, .nil w, rfl, by simp⟩
  | cons f fs ih =>
    intro w h hnd
    rw [List.map_cons, List.nodup_cons] at hnd
    obtain ⟨h1, h2, h3⟩ := h f (List.mem_cons_self ..)
    obtain ⟨ls, w', k1, k2, k3⟩ := ih (w.drop f.set.name) (fun g hg => by
      obtain ⟨a, b, c⟩ := h g (List.mem_cons_of_mem _ hg)
      exact ⟨mem_others.2 ⟨a, fun he => hnd.1 (List.mem_map.2 ⟨g, hg, he⟩)⟩, b, c⟩) hnd.2
    refine ⟨_, w', .cons (.gone f h1 h2 h3) k1, k2, fun g hg => ?_⟩
    rcases List.mem_cons.1 hg with rfl | hg
    · exact List.mem_cons_self ..
    · exact List.mem_cons_of_mem _ (k3 g hg)

theorem fresh_name (l : List FSet) : ∃ n, ∀ f ∈ l, f.set.name ≠ n := by
  obtain ⟨N, hN⟩ : ∃ N, ∀ f ∈ l, f.set.name.toList.length ≤ N := by
    induction l with
    | nil => exact ⟨0, by simp⟩
    | cons a l ih =>
      obtain ⟨N, hN⟩ := ih
      refine ⟨max N a.set.name.toList.length, fun m hm => ?_⟩
      rcases List.mem_cons.1 hm with rfl | hm
      · omega
      · have := hN m hm; omega
  refine ⟨Fleet.aName (N + 1), fun f hf he => ?_⟩
  have h1 := hN f hf
  rw [he, Fleet.aName_length] at h1
  omega

/-- the next epoch can always be made -/
theorem epoch_made (d : FDep) {S : Fleet.Fleet → Prop} (hS : ∀ ms s, S s → ∃ s', Fleet.Epoch ms s s' ∧ S s') {w : World} (hu : Dispatch.Unique w.sets)
    (hst : ∀ n, S (w.fleet n)) : ∃ w', Epoch d w w' := by
  obtain ⟨l1, w1, a1, a2, a3, a4⟩ := report_sets (d := d) (w.sets.map (·.set.name)) w (fun n hn => by
    obtain ⟨f, hf, he⟩ := List.mem_map.1 hn
    exact ⟨f, hf, he⟩)
  have hu1 : Dispatch.Unique w1.sets := by
    have : ∀ l : List FSet, l.map (·.set.name) = (keys l).map (·.1) := fun l => by unfold keys; rw [List.map_map]; rfl
    unfold Dispatch.Unique at hu ⊢
    rw [this, a3, ← this]; exact hu
  let idle : FSet → Bool := fun f => f.deleting && (w1.fleet f.set.name).ms.isEmpty
  have nodup : ∀ p : FSet → Bool, ((w1.sets.filter p).map (·.set.name)).Nodup := fun p => List.Nodup.sublist (List.filter_sublist.map _) hu1
  obtain ⟨l2, w2, b1, b2, b3, b4⟩ := serve_sets (d := d) hS (w1.sets.filter fun f => !idle f) w1 (fun f h => (List.mem_filter.1 h).1) (nodup _) (fun n => by rw [a2]; exact hst n)
  obtain ⟨l3, w3, c1, c2, c3⟩ := drop_sets (d := d) (w1.sets.filter idle) w2 (fun f hf => by
    obtain ⟨h1, h2⟩ := List.mem_filter.1 hf
    have h3 : f.deleting = true ∧ (w1.fleet f.set.name).ms = [] := by
      have : f.deleting && (w1.fleet f.set.name).ms.isEmpty := h2
      simpa using this
    refine ⟨by rw [b2]; exact h1, h3.1, ?_⟩
    rw [b3 f.set.name fun g hg he => ?_]
    · exact h3.2
    · obtain ⟨g1, g2⟩ := List.mem_filter.1 hg
      rw [unique_eq w1.sets hu1 g f g1 h1 he, h2] at g2
      cases g2) (nodup _)
  obtain ⟨nm, hnm⟩ := fresh_name w3.sets
  have hfine : ({ fresh := nm, hash := "1", machines := fun n => (w3.fleet n).ms.length } : Dispatch.Env).Fine w3.sets :=
    ⟨⟨fun l => List.Perm.refl l, fun l => List.Perm.refl l⟩, ⟨fun l => List.Perm.refl l, fun l => List.Perm.refl l⟩, hnm, (fun f h => by cases h), (show ("1" : String) ≠ "" by decide),
      fun l => List.Perm.refl l⟩
  have hstep : Step d w3 (.deploy true) _ := .good _ hfine ⟨rfl, rfl, rfl, rfl, rfl, hfine.newest, fun _ => rfl⟩ ⟨rfl, rfl, fun _ => rfl, fun _ => rfl⟩ rfl (fun _ _ => rfl)
  have hall := ((a1.append b1).append c1).append (.cons hstep (.nil _))
  refine ⟨_, _, hall, by simp, fun f hf => ?_⟩
  obtain ⟨g, hg, e1, e2, e3⟩ := keys_mem a3 hf
  by_cases hi : idle g = true
  · left
    have := c3 g (List.mem_filter.2 ⟨hg, hi⟩)
    rw [e1] at this
    exact List.mem_append.2 (.inl (List.mem_append.2 (.inr this)))
  · right
    have hi : idle g = false := by simpa using hi
    obtain ⟨d1, d2⟩ := b4 g (List.mem_filter.2 ⟨hg, by rw [hi]; rfl⟩)
    rw [e1] at d1 d2
    rw [a2] at d2
    refine ⟨fun hdel h0 => ?_, List.mem_append.2 (.inl (List.mem_append.2 (.inl (List.mem_append.2 (.inr d1))))),
      List.mem_append.2 (.inl (List.mem_append.2 (.inl (List.mem_append.2 (.inl (a4 _ (List.mem_map.2 ⟨f, hf, rfl⟩))))))), ?_⟩
    · have : idle g = true := by
        show (g.deleting && (w1.fleet g.set.name).ms.isEmpty) = true
        rw [e1, e3, hdel, a2, h0]; rfl
      rw [hi] at this; cases this
    · intro m hm m' hm' x1 x2
      rw [deploy_fleet, c2] at hm'
      exact List.mem_append.2 (.inl (List.mem_append.2 (.inl (List.mem_append.2 (.inr (d2 m hm m' hm' x1 x2))))))

theorem epoch_possible (d : FDep) {w : World} (hu : Dispatch.Unique w.sets) (hst : ∀ n, Fleet.Start (w.fleet n)) : ∃ w', Epoch d w w' :=
  epoch_made d (S := Fleet.Start) (fun ms s hs => by
    obtain ⟨s', h⟩ := Fleet.C97_possible ms s hs 1
    cases h with
    | succ h h0 => cases h0; exact ⟨s', h, by obtain ⟨ls, h1, _⟩ := h; exact Fleet.steps_start hs h1⟩) hu hst

/-- C101: the epochs that `C101_rollout_ends` speaks of can be made from every state. -/
theorem C101_possible (d : FDep) (hd : Rolls d) (w : World) (hw : Ready d w) (n : Nat) : ∃ w', Epochs d n w w' := by
  induction n generalizing w with
  | zero => exact ⟨w, .zero w⟩
  | succ n ih =>
    obtain ⟨w1, ls, h1, h2⟩ := epoch_possible d hw.sound.unique hw.start
    have hr : Ready d w1 := by
      clear h2
      induction h1 with
      | nil _ => exact hw
      | cons h _ ih => exact ih (step_ready hd hw h).1
    obtain ⟨w2, h⟩ := ih w1 hr
    exact ⟨w2, .succ ⟨ls, h1, h2⟩ h⟩

/-! ### A concrete case -/

/-- three machines of the template v2, one more during the rollout -/
def demoDep : FDep := { spec := { replicas := 3, maxSurge := some (.int 1), maxUnavailable := some (.int 0) }, template := { body := "v2" } }

/-- a set of the template v0 that is being deleted and has machines; a set of the template v1 with a failed machine, a new one, a running one marked for deletion, and one
being deleted; no set of v2 -/
def demo : World :=
  { sets := [{ set := { name := "older", spec := 1, desired := some "3" }, tmpl := { labels := [("machine-template-hash", "5")], body := "v0" }, deleting := true },
      { set := { name := "old", spec := 2, desired := some "3" }, tmpl := { labels := [("machine-template-hash", "7")], body := "v1" } }]
    fleet := fun n => if n = "old" ∨ n = "older" then Fleet.demo else { ms := [] } }

theorem demo_rolls : Rolls demoDep := ⟨⟨rfl, rfl, rfl, by decide, by decide, by unfold IsMap; decide⟩, rfl⟩

theorem demo_cur : cur demoDep demo.sets = none := by decide

theorem demo_ready : Ready demoDep demo := by
  refine ⟨⟨by unfold Dispatch.Unique; decide, by decide, by decide +kernel⟩, fun n => ?_, fun n hn => ?_, ?_, fun c hc => ?_⟩
  · unfold demo
    dsimp only
    split
    · exact Fleet.demo_start
    · exact ⟨by simp, by simp, rfl⟩
  · have h1 : "older" ≠ n := hn _ (List.mem_cons_self ..)
    have h2 : "old" ≠ n := hn _ (List.mem_cons_of_mem _ (List.mem_cons_self ..))
    unfold demo
    dsimp only
    rw [if_neg fun h => h.elim (fun h => h2 h.symm) fun h => h1 h.symm]
  · have : ∀ f ∈ demo.sets, equalIgnoreHash f.tmpl demoDep.template = false := by decide
    intro f hf he
    rw [this f hf] at he; cases he
  · rw [demo_cur] at hc; cases hc

theorem demo_within : Within 1 demoDep demo := by
  refine ⟨by decide, by decide, fun n => ?_⟩
  unfold demo
  dsimp only
  split
  · decide
  · simp

example : ∃ w', Epochs demoDep 216 demo w' ∧ RolledOut demoDep w' := by
  obtain ⟨w', h⟩ := C101_possible demoDep demo_rolls demo demo_ready 216
  exact ⟨w', h, C101_rollout_ends demoDep demo_rolls rfl 1 0 rfl rfl (by decide) (by decide) demo w' demo_ready 1 216 demo_within (by decide) h⟩

end MCM.World
