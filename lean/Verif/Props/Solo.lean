import Verif.Props.RecreateLive
/-!
C120: with the strategy Recreate, machines of two sets never exist at the same time.
-/
namespace MCM.World
open MCM MCM.Dispatch MCM.Rolling MCM.Template

/-! ### Executions -/

/-- the set neither wants nor has machines -/
def Idle (fl : String → Fleet.Fleet) (f : FSet) : Prop := f.set.spec = 0 ∧ (fl f.set.name).ms = []

/-- no set is of the present template, none wants machines, and there are machines: the moment between the end of the old machines and the creation of the new set -/
def Between (d : FDep) (w : World) : Prop :=
  (∀ c ∈ w.sets, ¬ SameTemplate c.tmpl d.template) ∧ (∀ f ∈ w.sets, f.set.spec = 0) ∧ ∃ f ∈ w.sets, (w.fleet f.set.name).ms ≠ []

/-- Everything that can have happened to a deployment that always had the strategy Recreate and was not rolled back: steps of the machine set controller and
the machine controller, runs of the deployment controller with statuses of sets of any time and any outcome of its calls, edits, pauses, resumptions and deletions of machine sets by the
user at any moment; while the deployment is paused, no run falls into the moment `Between` (see `C120_pause_false`).
`returns`: the template of a set that exists may come back while another set wants or has machines. `stale`: the cache of the deployment controller may know of no machine
of a set that has some. -/
inductive Replaced (returns stale : Prop) : FDep → World → Prop
  | created (d : FDep) : Valid d → d.spec.strategy = .recreate → d.rollbackTo = none →
      Replaced returns stale d { sets := [], fleet := fun _ => { ms := [] } }
  | step {d : FDep} {w w' : World} {l : Lab} : Replaced returns stale d w → Step d w l w' → (∀ b, l ≠ .deploy b) → Replaced returns stale d w'
  | run {d : FDep} {w : World} {e : Dispatch.Env} {seen : List FSet} : Replaced returns stale d w → Sees w.sets seen → e.Fine seen →
      (stale ∨ ∀ f ∈ w.sets, (w.fleet f.set.name).ms ≠ [] → 0 < e.machines f.set.name) → (d.paused = true → ¬ Between d w) →
      Replaced returns stale d (w.deploy d e seen)
  | edit {d d' : FDep} {w : World} : Replaced returns stale d w → Valid d' → d'.spec.strategy = .recreate → d'.rollbackTo = none →
      (d.spec.replicas = 0 → d'.spec.replicas ≠ 0 → ∀ f ∈ w.sets, f.set.spec = 0) →
      (returns ∨ d'.template = d.template ∨ ∀ c ∈ w.sets, SameTemplate c.tmpl d'.template → ∀ f ∈ w.sets, f.set.name ≠ c.set.name → Idle w.fleet f) →
      Replaced returns stale d' w
  | removed {d : FDep} {w : World} (n : String) : Replaced returns stale d w → Replaced returns stale d (w.mark n)

theorem Replaced.recreated {r s : Prop} {d : FDep} {w : World} (h : Replaced r s d w) : Recreated d w := by
  induction h with
  | created d hv h1 h2 => exact .created d hv h1 h2
  | step _ hs hl ih => exact ih.step hs hl
  | run _ hsee he _ _ ih => exact ih.run hsee he
  | edit _ hv h1 h2 hz _ ih => exact ih.edit hv h1 h2 hz
  | removed n _ ih => exact ih.removed n

/-! ### The invariant -/

/-- of two sets one is idle; if there is a set of the current template, all others are -/
structure Solo (d : FDep) (fl : String → Fleet.Fleet) (l : List FSet) : Prop where
  one : ∀ f ∈ l, ∀ g ∈ l, f.set.name ≠ g.set.name → Idle fl f ∨ Idle fl g
  rest : ∀ c, cur d l = some c → ∀ f ∈ l, f.set.name ≠ c.set.name → Idle fl f

theorem solo_of_rest {d : FDep} {fl : String → Fleet.Fleet} {l : List FSet} {c : FSet} (hc : cur d l = some c) (h : ∀ f ∈ l, f.set.name ≠ c.set.name → Idle fl f) :
    Solo d fl l := by
  refine ⟨fun f hf g hg hne => ?_, fun c' hc' => by rw [hc] at hc'; cases hc'; exact h⟩
  by_cases hfc : f.set.name = c.set.name
  · exact .inr (h g hg fun hgc => hne (hfc.trans hgc.symm))
  · exact .inl (h f hf hfc)

/-- sets may become smaller -/
theorem solo_rel {d : FDep} {fl : String → Fleet.Fleet} {R : FSet → FSet → Prop}
    (hR : ∀ a b, R a b → b.set.name = a.set.name ∧ (b.tmpl.labels = a.tmpl.labels ∧ b.tmpl.body = a.tmpl.body) ∧ (a.set.spec = 0 → b.set.spec = 0)) {l l' : List FSet}
    (h : List.Forall₂ R l l') (hs : Solo d fl l) : Solo d fl l' := by
  have idle : ∀ a b, R a b → Idle fl a → Idle fl b := fun a b hr hi => ⟨(hR a b hr).2.2 hi.1, by rw [(hR a b hr).1]; exact hi.2⟩
  refine ⟨fun f hf g hg hne => ?_, fun c hc f hf hne => ?_⟩
  · obtain ⟨a, ha, ra⟩ := mem_forall2 h f hf
    obtain ⟨b, hb, rb⟩ := mem_forall2 h g hg
    exact (hs.one a ha b hb fun h => hne (by rw [(hR a f ra).1, (hR b g rb).1, h])).imp (idle a f ra) (idle b g rb)
  · rcases cur_forall2 (d := d) (fun a b hr => (hR a b hr).2.1) h with ⟨_, h0⟩ | ⟨a, b, h1, h2, h3⟩
    · rw [h0] at hc; cases hc
    · rw [h2] at hc; cases hc
      obtain ⟨x, hx, rx⟩ := mem_forall2 h f hf
      exact idle x f rx (hs.rest a h1 x hx fun h => hne (by rw [(hR x f rx).1, (hR a c h3).1, h]))

theorem solo_even {d : FDep} {fl : String → Fleet.Fleet} {l l' : List FSet} (h : List.Forall₂ Even l l') (hs : Solo d fl l) : Solo d fl l' :=
  solo_rel (fun a b hr => ⟨hr.name, by rw [hr.tmpl]; exact ⟨rfl, rfl⟩, fun h => by rw [hr.spec, h]⟩) h hs

theorem solo_alike {d : FDep} {fl : String → Fleet.Fleet} {l l' : List FSet} (h : List.Forall₂ Alike l l') (hs : Solo d fl l) : Solo d fl l' :=
  solo_rel (fun a b hr => ⟨hr.name, by rw [hr.tmpl]; exact ⟨rfl, rfl⟩, fun h => by rw [hr.spec, h]⟩) h hs

theorem outcome_solo {d : FDep} (hd : Plain d) {e : Dispatch.Env} {G : Prop} {fl : String → Fleet.Fleet} {l out : List FSet} (hu : Dispatch.Unique l)
    (hm : ∀ f ∈ l, (fl f.set.name).ms ≠ [] → 0 < e.machines f.set.name) (hs : Solo d fl l) (h : Outcome d e l G out) : Solo d fl out := by
  cases h with
  | same _ h => exact solo_alike h hs
  | write n hn hw => exact solo_rel (fun a b hr => ⟨by rw [hr.1], hr.2.1, fun h => by rw [hr.1, h]⟩) (written_forall2 (d := d) hu (cur_mem hn)) hs
  | target n t hn hw ht hz hor h1 h2 =>
    refine solo_alike h2 ?_
    have htn : t.set.name = n.set.name := by
      rcases hor with h | ⟨_, h⟩
      · rw [h]
      · by_cases hne : t.set.name = n.set.name
        · exact hne
        · have := (hs.rest n hn t ht hne).1; omega
    rcases cur_sameRev (d := d) (fun _ _ (h : Retarget d t _ _) => h.toSameRev) h1 with ⟨h3, _⟩ | ⟨a, b, h3, h4, h5, _⟩
    · rw [hn] at h3; cases h3
    · rw [hn] at h3; cases h3
      refine solo_of_rest h4 fun f hf hne => ?_
      obtain ⟨x, hx, rx⟩ := mem_forall2 h1 f hf
      rw [rx.name, h5.name] at hne
      have hi := hs.rest n hn x hx hne
      have hset := rx.miss (by rw [htn]; exact hne)
      exact ⟨by rw [hset]; exact hi.1, by rw [hset]; exact hi.2⟩
  | zero h1 _ _ h2 =>
    refine solo_alike h2 (solo_rel (fun a b hr => ⟨hr.name, by rw [hr.tmpl]; exact ⟨rfl, rfl⟩, fun h => ?_⟩) h1 hs)
    rcases hr.or with h' | ⟨_, _, h'⟩
    · rw [h', h]
    · rw [h']; rfl
  | create hn hz hm0 h =>
    refine solo_alike h (solo_of_rest (created_cur hd hn d.spec.replicas) fun f hf hne => ?_)
    rcases List.mem_append.1 hf with hf | hf
    · refine ⟨hz f hf, ?_⟩
      cases hms : (fl f.set.name).ms with
      | nil => rfl
      | cons a t =>
        have := hm f hf (by rw [hms]; simp)
        rw [hm0 f hf] at this; cases this
    · rw [List.mem_singleton.1 hf] at hne; exact absurd rfl hne

theorem mem_after {R : FSet → FSet → Prop} {l l' : List FSet} (h : List.Forall₂ R l l') : ∀ a ∈ l, ∃ b ∈ l', R a b := by
  induction h with
  | nil => intro a ha; cases ha
  | cons h1 _ ih =>
    intro a ha
    rcases List.mem_cons.1 ha with rfl | ha
    · exact ⟨_, by simp, h1⟩
    · obtain ⟨b, hb, hr⟩ := ih a ha
      exact ⟨b, by simp [hb], hr⟩

/-- what a run of a paused deployment does -/
theorem paused_run {d : FDep} {e : Dispatch.Env} {l : List FSet} (ha : d.deleting = false) (hp : d.paused = true) :
    (reconcile d e l).sets = l ∨ (reconcile d e l).sets = sync d e l := by
  unfold reconcile
  rw [ha, hp]
  split
  · exact .inl rfl
  split
  · exact .inl rfl
  split
  · exact .inl rfl
  simp only [Bool.false_eq_true, if_false, if_true]
  split
  · exact .inl rfl
  · exact .inr rfl

/-- a run of a paused deployment -/
theorem paused_solo {d : FDep} {e : Dispatch.Env} {fl : String → Fleet.Fleet} {l : List FSet} (he : e.Fine l) (hu : Dispatch.Unique l) (hnn : ∀ f ∈ l, 0 ≤ f.set.spec)
    (h1 : wanting l ≤ 1) (hs : Solo d fl l) (hz : cur d l = none → (∀ f ∈ l, f.set.spec = 0) → ∀ f ∈ l, (fl f.set.name).ms = []) : Solo d fl (sync d e l) := by
  obtain ⟨m, hrel, hm⟩ := paused_target (d := d) he hu hnn h1
  cases m with
  | none => exact solo_rel (fun a b hr => ⟨hr.name, hr.tmpl, fun h => by rw [hr.miss (fun h => by cases h), h]⟩) hrel hs
  | some s =>
    have hc := hm s rfl
    have hidle : ∀ f ∈ l, f.set.name ≠ s → Idle fl f := by
      intro f hf hne
      by_cases hall : ∀ g ∈ l, g.set.spec = 0
      · cases hn : cur d l with
        | some n => exact hs.rest n hn f hf (by rw [← hc.first n hn hall]; exact hne)
        | none => exact ⟨hall f hf, hz hn hall f hf⟩
      · obtain ⟨t, ht⟩ := Classical.not_forall.1 hall
        obtain ⟨ht, htp⟩ := Classical.not_imp.1 ht
        have hts : t.set.name = s := Classical.byContradiction fun h => htp (hc.rest t ht h)
        exact (hs.one f hf t ht (by rw [hts]; exact hne)).resolve_right fun h => htp h.1
    have keep : ∀ a b, a ∈ l → Moved (some s) a b → a.set.name ≠ s → Idle fl b := fun a b ha hr hne => by
      have hi := hidle a ha hne
      exact ⟨by rw [hr.miss fun h => hne (Option.some.inj h).symm]; exact hi.1, by rw [hr.name]; exact hi.2⟩
    refine ⟨fun f hf g hg hne => ?_, fun c hc' f hf hne => ?_⟩
    · obtain ⟨a, ha, ra⟩ := mem_forall2 hrel f hf
      obtain ⟨b, hb, rb⟩ := mem_forall2 hrel g hg
      rw [ra.name, rb.name] at hne
      by_cases has : a.set.name = s
      · exact .inr (keep b g hb rb fun h => hne (has.trans h.symm))
      · exact .inl (keep a f ha ra has)
    · rcases cur_forall2 (d := d) (fun a b hr => hr.tmpl) hrel with ⟨_, h0⟩ | ⟨n, n', h2, h3, h4⟩
      · rw [h0] at hc'; cases hc'
      · rw [h3] at hc'; cases hc'
        obtain ⟨a, ha, ra⟩ := mem_forall2 hrel f hf
        rw [ra.name, h4.name] at hne
        refine keep a f ha ra fun has => ?_
        have hi := hs.rest n h2 a ha hne
        have hall : ∀ g ∈ l, g.set.spec = 0 := by
          intro g hg
          by_cases hgs : g.set.name = s
          · rw [unique_eq l hu g a hg ha (hgs.trans has.symm)]; exact hi.1
          · exact hc.rest g hg hgs
        exact hne (has.trans (hc.first n h2 hall))

/-- a set of size zero without machines gets none -/
theorem idle_step {f : FSet} (hf : f.set.spec = 0) {s s' : Fleet.Fleet} {l : Fleet.Lab} (hs : Fleet.Start s) (h0 : s.ms = []) (h : Fleet.Step (demand f) s l s') : s'.ms = [] := by
  have hb := Fleet.step_bound (unfrozen f) hs h
  have hg : Fleet.goal (demand f) = 0 := by have := goal_le f; rw [hf] at this; omega
  rw [hg] at hb
  cases h with
  | set srt now new h1 h2 h3 h4 =>
    unfold Fleet.Fleet.after at hb ⊢
    rw [h0] at hb ⊢
    rw [List.filterMap_nil, List.nil_append] at hb ⊢
    cases new with
    | nil => rfl
    | cons m t =>
      obtain ⟨v, x, rfl, _⟩ := h3 m (by simp)
      unfold Fleet.lives at hb
      simp [Fleet.M.isDying] at hb
  | machine e vm vms v x h1 _ _ => rw [h0] at h1; cases h1
  | late e vms t p c tr h1 _ _ => rw [h0] at h1; cases h1
  | early e vms t p c tr h1 _ => rw [h0] at h1; cases h1

theorem solo_drop {d : FDep} {fl : String → Fleet.Fleet} {l : List FSet} (hs : Solo d fl l) (n : String) : Solo d fl (others l n) := by
  refine ⟨fun f hf g hg => hs.one f (mem_others.1 hf).1 g (mem_others.1 hg).1, fun c hc f hf hne => ?_⟩
  obtain ⟨hf, hfn⟩ := mem_others.1 hf
  cases ho : cur d l with
  | none =>
    rw [cur_drop (fun x hx => by rw [ho] at hx; cases hx), ho] at hc; cases hc
  | some x =>
    by_cases hx : x.set.name = n
    · exact hs.rest x ho f hf (by rw [hx]; exact hfn)
    · rw [cur_drop (fun y hy => by rw [ho] at hy; cases hy; exact hx), ho] at hc
      cases hc
      exact hs.rest _ ho f hf hne

theorem Replaced.solo {d : FDep} {w : World} (h : Replaced False False d w) : Solo d w.fleet w.sets := by
  induction h with
  | created d _ _ _ => exact ⟨fun f hf => (nomatch hf), fun c hc => by cases hc⟩
  | @step d w w' l hw hs hl ih =>
    cases hs with
    | machines f l s' hf hst =>
      have ho := hw.recreated.history.1.open
      have idle : ∀ g ∈ w.sets, Idle w.fleet g → Idle (w.change f.set.name s').fleet g := by
        intro g hg hi
        refine ⟨hi.1, ?_⟩
        unfold World.change
        dsimp only
        split
        · rename_i hn
          have : g = f := unique_eq w.sets ho.loose.base.unique g f hg hf hn
          subst this
          exact idle_step hi.1 (ho.start _) hi.2 hst
        · exact hi.2
      exact ⟨fun f hf g hg hne => (ih.one f hf g hg hne).imp (idle f hf) (idle g hg), fun c hc f hf hne => idle f hf (ih.rest c hc f hf hne)⟩
    | status f hf => exact solo_even ((report_agree w f.set.name).imp fun _ _ h => h.even) ih
    | gone f hf _ _ => exact solo_drop ih _
    | poor e seen h1 h2 => exact absurd rfl (hl false)
    | good e h1 _ _ _ _ => exact absurd rfl (hl true)
  | @run d w e seen hw hsee he hm hb ih =>
    have hm := hm.resolve_left id
    have hh := hw.recreated
    obtain ⟨h1, h2, h3⟩ := hh.history
    have hv := h1.open.valid
    have hl := sees_loose hsee h1.open.loose
    have hev : List.Forall₂ Even w.sets seen := (sees_agree hsee).imp fun _ _ h => h.even
    have hone : wanting seen ≤ 1 := by rw [even_wanting hev]; exact hh.one
    have hms : ∀ f ∈ seen, (w.fleet f.set.name).ms ≠ [] → 0 < e.machines f.set.name := by
      intro f hf
      obtain ⟨a, ha, hr⟩ := mem_forall2 hev f hf
      rw [hr.name]; exact hm a ha
    have hs := solo_even hev ih
    refine solo_even ((restore_agree w.sets (reconcile d e seen).sets).imp fun _ _ h => h.even) ?_
    cases hp : d.paused with
    | false =>
      have hd : Plain d := ⟨hp, hv.alive, h3, hv.size, hv.keys, hv.labels⟩
      rcases reconcile_rolls hd e seen with h | h
      · rw [h]; exact hs
      · rw [h]; exact outcome_solo hd hl.base.unique hms hs (recreate_outcome hd h2 he hl.base fun _ => hone)
    | true =>
      have hz : cur d seen = none → (∀ f ∈ seen, f.set.spec = 0) → ∀ f ∈ seen, (w.fleet f.set.name).ms = [] := by
        intro hc hz f hf
        obtain ⟨a, ha, hr⟩ := mem_forall2 hev f hf
        cases hms' : (w.fleet f.set.name).ms with
        | nil => rfl
        | cons x t =>
          refine absurd ⟨fun c hc' hsame => ?_, fun g hg => ?_, a, ha, by rw [← hr.name, hms']; simp⟩ (hb hp)
          · obtain ⟨b, hbm, hrb⟩ := mem_after hev c hc'
            have := List.find?_eq_none.1 hc b hbm
            rw [hrb.tmpl] at this
            exact this (((h1.open.templates c hc').honest hv).2 hsame)
          · obtain ⟨b, hbm, hrb⟩ := mem_after hev g hg
            rw [← hrb.spec]; exact hz b hbm
      rcases paused_run (e := e) (l := seen) hv.alive hp with h | h
      · rw [h]; exact hs
      · rw [h]; exact paused_solo he hl.base.unique (fun f hf => (hl.base.nonneg f hf).1) hone hs hz
  | @edit d d' w hw hv _ _ _ ht ih =>
    refine ⟨ih.one, fun c hc => ?_⟩
    rcases ht.resolve_left id with h | h
    · refine ih.rest c ?_
      unfold cur at hc ⊢
      rw [h] at hc; exact hc
    · exact h c (cur_mem hc) (((hw.recreated.history.1.open.templates c (cur_mem hc)).honest hv).1 (cur_match hc))
  | @removed d w n _ ih => exact solo_even ((mark_agree w n).imp fun _ _ h => h.even) ih

/-! ### The theorems -/

/-- C120: "With the strategy Recreate, machines of two templates never exist at the same time": at every moment there is a set such that no machine (and no VM) exists that
is not of this set. Proved unless the template of an existing set comes back while another set is in use (`C120_return_false`), provided that the deployment controller's
cache knows of at least one machine of every set that has some (`C120_stale_false`), and that no run of the paused deployment falls into the moment between the end of the old
set and the creation of the new one (`Between`, `C120_pause_false`). -/
theorem C120_one_set_partial (d : FDep) (w : World) (hh : Replaced False False d w) :
    ∃ n, ∀ m, m ≠ n → (w.fleet m).ms = [] ∧ (w.fleet m).orphans = [] := by
  have ho := hh.recreated.history.1.open
  have hs := hh.solo
  by_cases hx : ∃ f ∈ w.sets, (w.fleet f.set.name).ms ≠ []
  · obtain ⟨f, hf, hfm⟩ := hx
    refine ⟨f.set.name, fun m hm => ⟨?_, (ho.start m).orphans⟩⟩
    by_cases hg : ∃ g ∈ w.sets, g.set.name = m
    · obtain ⟨g, hg, rfl⟩ := hg
      rcases hs.one f hf g hg (fun h => hm h.symm) with h | h
      · exact absurd h.2 hfm
      · exact h.2
    · exact ho.none m fun g hg' hn => hg ⟨g, hg', hn⟩
  · refine ⟨"", fun m _ => ⟨?_, (ho.start m).orphans⟩⟩
    by_cases hg : ∃ g ∈ w.sets, g.set.name = m
    · obtain ⟨g, hg, rfl⟩ := hg
      cases hms : (w.fleet g.set.name).ms with
      | nil => rfl
      | cons a t => exact absurd ⟨g, hg, by rw [hms]; simp⟩ hx
    · exact ho.none m fun g hg' hn => hg ⟨g, hg', hn⟩

/-- C120: A set is given a size only when no machine of any other set is left, and as long as it has one, no machine of another set exists. -/
theorem C120_waits_partial (d : FDep) (w : World) (hh : Replaced False False d w) (f : FSet) (hf : f ∈ w.sets) (hp : 0 < f.set.spec) :
    (∀ g ∈ w.sets, g.set.name ≠ f.set.name → g.set.spec = 0) ∧ ∀ m, m ≠ f.set.name → (w.fleet m).ms = [] := by
  have ho := hh.recreated.history.1.open
  have hs := hh.solo
  have idle : ∀ g ∈ w.sets, g.set.name ≠ f.set.name → Idle w.fleet g := by
    intro g hg hne
    rcases hs.one g hg f hf hne with h | h
    · exact h
    · have := h.1; omega
  refine ⟨fun g hg hne => (idle g hg hne).1, fun m hm => ?_⟩
  by_cases hg : ∃ g ∈ w.sets, g.set.name = m
  · obtain ⟨g, hg, rfl⟩ := hg
    exact (idle g hg hm).2
  · exact ho.none m fun g hg' hn => hg ⟨g, hg', hn⟩

/-! ### Concrete histories -/

/-- a set that wants three machines and has none can be given them -/
theorem grow {r s : Prop} {d : FDep} {w : World} (h : Replaced r s d w) {f : FSet} (hf : f ∈ w.sets) (hp : f.set.spec = 3) (hx : f.deleting = false)
    (h0 : (w.fleet f.set.name).ms = []) : ∃ x : Fleet.Fleet, x.ms ≠ [] ∧ Replaced r s d (w.change f.set.name x) := by
  obtain ⟨new, h1, h2, h3⟩ := Fleet.fresh_names (w.fleet f.set.name).ms (by rw [h0]; exact List.nodup_nil) (Fleet.plan id (demand f) (w.fleet f.set.name).ms).issued
  have hst : Fleet.Step (demand f) (w.fleet f.set.name) .set _ := .set id 0 new (fun l => List.Perm.refl l) h1 h2 h3
  refine ⟨_, ?_, h.step (.machines f _ _ hf hst) (fun b hb => by cases hb)⟩
  unfold Fleet.Fleet.after
  rw [h0, show demand f = { replicas := 3, deleting := false } by unfold demand; rw [hp, hx]; rfl,
    show (Fleet.plan id { replicas := 3, deleting := false } []).issued = 3 by decide +kernel] at h1
  cases new with
  | nil => cases h1
  | cons a t => simp

/-- the sets of the deployment when the template v2 has come after v1, and the controller has run once -/
def q2 : List FSet := (r1.deploy (rDep 3 "v2") (zEnv "b" "2") r1.sets).sets
/-- and again -/
def q3 : List FSet := (World.deploy { sets := q2, fleet := r1.fleet } (rDep 3 "v2") (zEnv "b" "2") q2).sets
/-- the cache of machines -/
def qEnv : Dispatch.Env := { fresh := "c", hash := "3", machines := fun n => if n = "b" then 3 else 0 }
/-- the template v1 comes back, and the controller runs once -/
def q4 : List FSet := (World.deploy { sets := q3, fleet := r1.fleet } (rDep 3 "v1") qEnv q3).sets
/-- and again -/
def q5 : List FSet := (World.deploy { sets := q4, fleet := r1.fleet } (rDep 3 "v1") qEnv q4).sets
/-- and a third time -/
def q6 : List FSet := (World.deploy { sets := q5, fleet := r1.fleet } (rDep 3 "v1") qEnv q5).sets

theorem r1_replaced (r s : Prop) : Replaced r s (rDep 3 "v1") r1 := by
  have h0 : Replaced r s (rDep 3 "v1") (noMachines []) := .created _ (rDep_valid 3 "v1" (by decide) ⟨by decide, by decide⟩) rfl rfl
  exact h0.run (e := zEnv "a" "1") .nil (fine_of _ _ rfl rfl rfl (.inl rfl) (by simp) rfl (show ("1" : String) ≠ "" by decide)) (.inr fun f hf => by cases hf) (fun h => by cases h)

/-- after two runs the set of v1 is at zero and there is one of v2 -/
example : q3.map (fun f => (f.set.name, f.tmpl.body, f.set.spec)) = [("a", "v1", 0), ("b", "v2", 3)] := by decide +kernel

theorem q3_replaced (r : Prop) : Replaced r False (rDep 3 "v2") { sets := q3, fleet := r1.fleet } := by
  have h1 : Replaced r False (rDep 3 "v2") r1 := by
    refine (r1_replaced r False).edit (rDep_valid 3 "v2" (by decide) ⟨by decide, by decide⟩) rfl rfl (fun h => absurd h (by decide)) (.inr (.inr fun c hc hs => ?_))
    have : ∀ c ∈ r1.sets, c.tmpl.body ≠ (rDep 3 "v2").template.body := by decide +kernel
    exact absurd hs.2 (this c hc)
  have h2 : Replaced r False (rDep 3 "v2") { sets := q2, fleet := r1.fleet } :=
    h1.run (e := zEnv "b" "2") (sees_self (by decide +kernel)) (fine_of _ _ rfl rfl rfl (.inl rfl) (by decide +kernel) rfl (show ("2" : String) ≠ "" by decide))
      (.inr fun f hf h => absurd rfl h) (fun h => by cases h)
  exact h2.run (e := zEnv "b" "2") (sees_self (by decide +kernel)) (fine_of _ _ rfl rfl rfl (.inl rfl) (by decide +kernel) rfl (show ("2" : String) ≠ "" by decide))
      (.inr fun f hf h => absurd rfl h) (fun h => by cases h)

/-- a history as in the theorems: v1, then v2, and the machines of v2 are there -/
example : ∃ w, Replaced False False (rDep 3 "v2") w ∧ (w.fleet "b").ms ≠ [] ∧ w.sets = q3 ∧ ∀ m, m ≠ "b" → (w.fleet m).ms = [] := by
  have hb : ∃ f ∈ q3, f.set.name = "b" ∧ f.set.spec = 3 ∧ f.deleting = false := by decide +kernel
  obtain ⟨f, hf, hn, hs, hdel⟩ := hb
  obtain ⟨x, hx, h⟩ := grow (q3_replaced False) hf hs hdel rfl
  rw [hn] at h
  refine ⟨_, h, by unfold World.change; simpa using hx, rfl, fun m hm => ?_⟩
  have : 0 < f.set.spec := by omega
  exact (C120_waits_partial _ _ h f hf this).2 m (by rw [hn]; exact hm)

/-- a history with a pause: v1 is there, the deployment is paused and, while it is, given the template v2 and a size of five; the set of v1 is scaled, and only after the end of the pause does
that of v2 replace it -/
def h2 : List FSet := (r1.deploy { rDep 5 "v2" with paused := true } (zEnv "b" "2") r1.sets).sets
def h3 : List FSet := (World.deploy { sets := h2, fleet := r1.fleet } (rDep 5 "v2") (zEnv "b" "2") h2).sets
def h4 : List FSet := (World.deploy { sets := h3, fleet := r1.fleet } (rDep 5 "v2") (zEnv "b" "2") h3).sets

example : h2.map (fun f => (f.set.name, f.tmpl.body, f.set.spec)) = [("a", "v1", 5)] ∧ h4.map (fun f => (f.set.name, f.tmpl.body, f.set.spec)) = [("a", "v1", 0), ("b", "v2", 5)] := by
  decide +kernel

example : Replaced False False (rDep 5 "v2") { sets := h4, fleet := r1.fleet } := by
  have hne : ∀ l : List FSet, (∀ c ∈ l, c.tmpl.body ≠ "v2") → ∀ c ∈ l, ¬ SameTemplate c.tmpl (rDep 5 "v2").template := fun l h c hc hs => h c hc hs.2
  have g1 : Replaced False False { rDep 5 "v2" with paused := true } r1 :=
    (r1_replaced False False).edit ⟨rfl, ⟨by decide, by decide⟩, ⟨by decide, by decide⟩, List.nodup_nil, List.nodup_nil, rfl, fun k v h => by cases h⟩ rfl rfl
      (fun h => absurd h (by decide)) (.inr (.inr fun c hc hs => absurd hs (hne r1.sets (by decide +kernel) c hc)))
  have g2 : Replaced False False { rDep 5 "v2" with paused := true } { sets := h2, fleet := r1.fleet } :=
    g1.run (e := zEnv "b" "2") (sees_self (by decide +kernel)) (fine_of _ _ rfl rfl rfl (.inl rfl) (by decide +kernel) rfl (show ("2" : String) ≠ "" by decide))
      (.inr fun f hf h => absurd rfl h) fun _ ⟨_, _, f, _, hf⟩ => hf rfl
  have g2 : Replaced False False (rDep 5 "v2") { sets := h2, fleet := r1.fleet } :=
    g2.edit (rDep_valid 5 "v2" (by decide) ⟨by decide, by decide⟩) rfl rfl (fun h => absurd h (by decide)) (.inr (.inl rfl))
  have g3 : Replaced False False (rDep 5 "v2") { sets := h3, fleet := r1.fleet } :=
    g2.run (e := zEnv "b" "2") (sees_self (by decide +kernel)) (fine_of _ _ rfl rfl rfl (.inl rfl) (by decide +kernel) rfl (show ("2" : String) ≠ "" by decide))
      (.inr fun f hf h => absurd rfl h) (fun h => by cases h)
  exact g3.run (e := zEnv "b" "2") (sees_self (by decide +kernel)) (fine_of _ _ rfl rfl rfl (.inl rfl) (by decide +kernel) rfl (show ("2" : String) ≠ "" by decide))
      (.inr fun f hf h => absurd rfl h) (fun h => by cases h)

/-- C120: without the first restriction it is not so. The template v1 was replaced by v2 and comes back. The first runs bring the set of v2 to zero; then no set wants
machines, `isScalingEvent` (deployment_sync.go:673-698) takes this for a deployment to be scaled up from zero, and `scale` (deployment_sync.go:409-415) brings the set of v1
to full size although all machines of v2 still exist and the controller knows of them. -/
theorem C120_return_false : ∃ (d : FDep) (w : World), Replaced True False d w ∧ (w.fleet "a").ms ≠ [] ∧ (w.fleet "b").ms ≠ [] := by
  have hb : ∃ f ∈ q3, f.set.name = "b" ∧ f.set.spec = 3 ∧ f.deleting = false := by decide +kernel
  obtain ⟨f, hf, hn, hs, hdel⟩ := hb
  obtain ⟨x, hx, h3⟩ := grow (q3_replaced True) hf hs hdel rfl
  rw [hn] at h3
  let fl : String → Fleet.Fleet := fun m => if m = "b" then x else r1.fleet m
  have known : ∀ l : List FSet, ∀ g ∈ l, (fl g.set.name).ms ≠ [] → 0 < qEnv.machines g.set.name := by
    intro l g hg h
    show 0 < if g.set.name = "b" then 3 else 0
    by_cases hgb : g.set.name = "b"
    · rw [if_pos hgb]; decide
    · refine absurd ?_ h
      show (if g.set.name = "b" then x else r1.fleet g.set.name).ms = []
      rw [if_neg hgb]; rfl
  have h3 : Replaced True False (rDep 3 "v2") { sets := q3, fleet := fl } := h3
  have h3 : Replaced True False (rDep 3 "v1") { sets := q3, fleet := fl } :=
    h3.edit (rDep_valid 3 "v1" (by decide) ⟨by decide, by decide⟩) rfl rfl (fun h => absurd h (by decide)) (.inl trivial)
  have h4 : Replaced True False (rDep 3 "v1") { sets := q4, fleet := fl } :=
    h3.run (e := qEnv) (show Sees q3 q3 from sees_self (by decide +kernel)) (fine_of _ _ rfl rfl rfl (.inl rfl) (by decide +kernel) rfl (show ("3" : String) ≠ "" by decide)) (.inr (known _)) (fun h => by cases h)
  have h5 : Replaced True False (rDep 3 "v1") { sets := q5, fleet := fl } :=
    h4.run (e := qEnv) (show Sees q4 q4 from sees_self (by decide +kernel)) (fine_of _ _ rfl rfl rfl (.inl rfl) (by decide +kernel) rfl (show ("3" : String) ≠ "" by decide)) (.inr (known _)) (fun h => by cases h)
  have h6 : Replaced True False (rDep 3 "v1") { sets := q6, fleet := fl } :=
    h5.run (e := qEnv) (show Sees q5 q5 from sees_self (by decide +kernel)) (fine_of _ _ rfl rfl rfl (.inl rfl) (by decide +kernel) rfl (show ("3" : String) ≠ "" by decide)) (.inr (known _)) (fun h => by cases h)
  have ha : ∃ f ∈ q6, f.set.name = "a" ∧ f.set.spec = 3 ∧ f.deleting = false := by decide +kernel
  obtain ⟨g, hg, hgn, hgs, hgd⟩ := ha
  obtain ⟨y, hy, h7⟩ := grow h6 hg hgs hgd (by rw [hgn]; rfl)
  rw [hgn] at h7
  exact ⟨_, _, h7, hy, hx⟩

/-- C120: nor without the second. The machines of v1 are there, but the deployment controller's caches (of machines, and of the status of the set) do not show them yet when the
template v2 comes; the runs bring the set of v1 to zero and create the set of v2 at full size. -/
theorem C120_stale_false : ∃ (d : FDep) (w : World), Replaced False True d w ∧ (w.fleet "a").ms ≠ [] ∧ (w.fleet "b").ms ≠ [] := by
  have ha : ∃ f ∈ r1.sets, f.set.name = "a" ∧ f.set.spec = 3 ∧ f.deleting = false := by decide +kernel
  obtain ⟨f, hf, hn, hs, hdel⟩ := ha
  obtain ⟨x, hx, h1⟩ := grow (r1_replaced False True) hf hs hdel rfl
  rw [hn] at h1
  let fl : String → Fleet.Fleet := fun m => if m = "a" then x else r1.fleet m
  have h1 : Replaced False True (rDep 3 "v1") { sets := r1.sets, fleet := fl } := h1
  have h1 : Replaced False True (rDep 3 "v2") { sets := r1.sets, fleet := fl } := by
    refine h1.edit (rDep_valid 3 "v2" (by decide) ⟨by decide, by decide⟩) rfl rfl (fun h => absurd h (by decide)) (.inr (.inr fun c hc hs => ?_))
    have : ∀ c ∈ r1.sets, c.tmpl.body ≠ (rDep 3 "v2").template.body := by decide +kernel
    exact absurd hs.2 (this c hc)
  have h2 : Replaced False True (rDep 3 "v2") { sets := q2, fleet := fl } :=
    h1.run (e := zEnv "b" "2") (show Sees r1.sets r1.sets from sees_self (by decide +kernel)) (fine_of _ _ rfl rfl rfl (.inl rfl) (by decide +kernel) rfl (show ("2" : String) ≠ "" by decide)) (.inl trivial) (fun h => by cases h)
  have h3 : Replaced False True (rDep 3 "v2") { sets := q3, fleet := fl } :=
    h2.run (e := zEnv "b" "2") (show Sees q2 q2 from sees_self (by decide +kernel)) (fine_of _ _ rfl rfl rfl (.inl rfl) (by decide +kernel) rfl (show ("2" : String) ≠ "" by decide)) (.inl trivial) (fun h => by cases h)
  have hb : ∃ f ∈ q3, f.set.name = "b" ∧ f.set.spec = 3 ∧ f.deleting = false := by decide +kernel
  obtain ⟨g, hg, hgn, hgs, hgd⟩ := hb
  obtain ⟨y, hy, h4⟩ := grow h3 hg hgs hgd (by rw [hgn]; rfl)
  rw [hgn] at h4
  exact ⟨_, _, h4, hx, hy⟩

/-- the second set is younger than the first -/
def pEnv (k : String → Nat) : Dispatch.Env := { fresh := "b", hash := "2", now := 1, machines := k }
def pEnvC (k : String → Nat) : Dispatch.Env := { fresh := "c", hash := "3", now := 2, machines := k }
/-- v1, then v2 -/
def p2 : List FSet := (r1.deploy (rDep 3 "v2") (pEnv fun _ => 0) r1.sets).sets
def p3 : List FSet := (World.deploy { sets := p2, fleet := r1.fleet } (rDep 3 "v2") (pEnv fun _ => 0) p2).sets
/-- scaled to nothing -/
def p4 : List FSet := (World.deploy { sets := p3, fleet := r1.fleet } (rDep 0 "v2") (pEnvC fun _ => 0) p3).sets
/-- v1 again, three machines; the controller runs twice -/
def p5a : List FSet := (World.deploy { sets := p4, fleet := r1.fleet } (rDep 3 "v1") (pEnvC fun _ => 0) p4).sets
def p5 : List FSet := (World.deploy { sets := p5a, fleet := r1.fleet } (rDep 3 "v1") (pEnvC fun _ => 0) p5a).sets
/-- v3: the set of v1 goes to zero -/
def p6 : List FSet := (World.deploy { sets := p5, fleet := r1.fleet } (rDep 3 "v3") (pEnvC fun n => if n = "a" then 3 else 0) p5).sets
/-- and the deployment is paused -/
def p7 : List FSet :=
  (World.deploy { sets := p6, fleet := r1.fleet } { rDep 3 "v3" with paused := true } { pEnvC (fun n => if n = "a" then 3 else 0) with scale := { srtNewest := List.reverse } } p6).sets

/-- The history of the next theorem before the pause: v1, v2, scaled to nothing, v1 again with machines, then v3. -/
theorem p6_replaced : ∃ x : Fleet.Fleet, x.ms ≠ [] ∧ Replaced False False (rDep 3 "v3") { sets := p6, fleet := fun m => if m = "a" then x else r1.fleet m } := by
  have ne : ∀ t : String, ∀ l : List FSet, (∀ c ∈ l, c.tmpl.body ≠ t) → ∀ fl : String → Fleet.Fleet,
      ∀ c ∈ l, SameTemplate c.tmpl (rDep 3 t).template → ∀ f ∈ l, f.set.name ≠ c.set.name → Idle fl f :=
    fun t l h fl c hc hs => absurd hs.2 (h c hc)
  have h1 : Replaced False False (rDep 3 "v2") r1 :=
    (r1_replaced False False).edit (rDep_valid 3 "v2" (by decide) ⟨by decide, by decide⟩) rfl rfl (fun h => absurd h (by decide))
      (.inr (.inr (ne "v2" r1.sets (by decide +kernel) _)))
  have h2 : Replaced False False (rDep 3 "v2") { sets := p2, fleet := r1.fleet } :=
    h1.run (e := pEnv fun _ => 0) (sees_self (by decide +kernel)) (fine_of _ _ rfl rfl rfl (.inl rfl) (by decide +kernel) rfl (show ("2" : String) ≠ "" by decide))
      (.inr fun f hf h => absurd rfl h) (fun h => by cases h)
  have h3 : Replaced False False (rDep 3 "v2") { sets := p3, fleet := r1.fleet } :=
    h2.run (e := pEnv fun _ => 0) (sees_self (by decide +kernel)) (fine_of _ _ rfl rfl rfl (.inl rfl) (by decide +kernel) rfl (show ("2" : String) ≠ "" by decide))
      (.inr fun f hf h => absurd rfl h) (fun h => by cases h)
  have h3 : Replaced False False (rDep 0 "v2") { sets := p3, fleet := r1.fleet } :=
    h3.edit (rDep_valid 0 "v2" (by decide) ⟨by decide, by decide⟩) rfl rfl (fun h => absurd h (by decide)) (.inr (.inl rfl))
  have h4 : Replaced False False (rDep 0 "v2") { sets := p4, fleet := r1.fleet } :=
    h3.run (e := pEnvC fun _ => 0) (sees_self (by decide +kernel)) (fine_of _ _ rfl rfl rfl (.inl rfl) (by decide +kernel) rfl (show ("3" : String) ≠ "" by decide))
      (.inr fun f hf h => absurd rfl h) (fun h => by cases h)
  have z4 : ∀ f ∈ p4, f.set.spec = 0 := by decide +kernel
  have h4 : Replaced False False (rDep 3 "v1") { sets := p4, fleet := r1.fleet } :=
    h4.edit (rDep_valid 3 "v1" (by decide) ⟨by decide, by decide⟩) rfl rfl (fun _ _ => z4) (.inr (.inr fun c hc hs f hf hne => ⟨z4 f hf, rfl⟩))
  have h5a : Replaced False False (rDep 3 "v1") { sets := p5a, fleet := r1.fleet } :=
    h4.run (e := pEnvC fun _ => 0) (sees_self (by decide +kernel)) (fine_of _ _ rfl rfl rfl (.inl rfl) (by decide +kernel) rfl (show ("3" : String) ≠ "" by decide))
      (.inr fun f hf h => absurd rfl h) (fun h => by cases h)
  have h5 : Replaced False False (rDep 3 "v1") { sets := p5, fleet := r1.fleet } :=
    h5a.run (e := pEnvC fun _ => 0) (sees_self (by decide +kernel)) (fine_of _ _ rfl rfl rfl (.inl rfl) (by decide +kernel) rfl (show ("3" : String) ≠ "" by decide))
      (.inr fun f hf h => absurd rfl h) (fun h => by cases h)
  have ha : ∃ f ∈ p5, f.set.name = "a" ∧ f.set.spec = 3 ∧ f.deleting = false := by decide +kernel
  obtain ⟨f, hf, hn, hs, hdel⟩ := ha
  obtain ⟨x, hx, h5⟩ := grow h5 hf hs hdel (by rw [hn]; rfl)
  rw [hn] at h5
  let fl : String → Fleet.Fleet := fun m => if m = "a" then x else r1.fleet m
  have h5 : Replaced False False (rDep 3 "v1") { sets := p5, fleet := fl } := h5
  have h5 : Replaced False False (rDep 3 "v3") { sets := p5, fleet := fl } :=
    h5.edit (rDep_valid 3 "v3" (by decide) ⟨by decide, by decide⟩) rfl rfl (fun h => absurd h (by decide)) (.inr (.inr (ne "v3" p5 (by decide +kernel) _)))
  refine ⟨x, hx, h5.run (e := pEnvC fun n => if n = "a" then 3 else 0) (show Sees p5 p5 from sees_self (by decide +kernel))
    (fine_of _ _ rfl rfl rfl (.inl rfl) (by decide +kernel) rfl (show ("3" : String) ≠ "" by decide)) (.inr fun g hg h => ?_) (fun h => by cases h)⟩
  show 0 < if g.set.name = "a" then 3 else 0
  by_cases hga : g.set.name = "a"
  · rw [if_pos hga]; decide
  · refine absurd ?_ h
    show (if g.set.name = "a" then x else r1.fleet g.set.name).ms = []
    rw [if_neg hga]; rfl

/-- C120: nor if the deployment is paused at the moment `Between`. Between the end of the set of v1 and the creation of the one of v3 no set wants machines; `scale` (deployment_sync.go:409-415), to which a paused
deployment leads, then gives the full size to the set created last, here the one of v2, although the machines of v1 still exist and the controller knows of them: machines of a
template that is neither the present nor the previous one are started, next to those of the previous one. -/
theorem C120_pause_false : ∃ (d : FDep) (w : World) (e : Dispatch.Env), Replaced False False d w ∧ e.Fine w.sets ∧ ((e.scale.srtNewest (w.sets.map (·.set))).Pairwise fun a b => b.creation ≤ a.creation) ∧
    (∀ f ∈ w.sets, (w.fleet f.set.name).ms ≠ [] → 0 < e.machines f.set.name) ∧ (w.fleet "a").ms ≠ [] ∧
    (∀ f ∈ w.sets, f.set.spec = 0) ∧ ∃ f ∈ (w.deploy { d with paused := true } e w.sets).sets, f.set.name = "b" ∧ f.set.spec = 3 := by
  obtain ⟨x, hx, h⟩ := p6_replaced
  refine ⟨_, _, { pEnvC (fun n => if n = "a" then 3 else 0) with scale := { srtNewest := List.reverse } }, h,
    ?_, (show (List.reverse (p6.map (·.set))).Pairwise _ by decide +kernel), fun g hg hne => ?_, hx, (show ∀ f ∈ p6, f.set.spec = 0 by decide +kernel),
    (show ∃ f ∈ p7, f.set.name = "b" ∧ f.set.spec = 3 by decide +kernel)⟩
  · have hf : ∀ f ∈ p6, f.set.name ≠ "c" := by decide +kernel
    exact ⟨⟨fun l => List.Perm.refl l, fun l => List.Perm.refl l⟩, ⟨fun l => List.reverse_perm l, fun l => List.Perm.refl l⟩, hf, (fun f h => nomatch h),
      (show ("3" : String) ≠ "" by decide), fun l => List.Perm.refl l⟩
  show 0 < if g.set.name = "a" then 3 else 0
  by_cases hga : g.set.name = "a"
  · rw [if_pos hga]; decide
  · refine absurd ?_ hne
    show (if g.set.name = "a" then x else r1.fleet g.set.name).ms = []
    rw [if_neg hga]; rfl

end MCM.World
