import Verif.Model.Guard
import Verif.Props.Freeze
import Verif.Props.MachineSet
/-!
# C136 – a freeze is temporary

The machine set controller (`MachineSet.manageReplicas`) and the overshooting safety controller (`Freeze.idealRun`) work on the same machine sets: the former removes what is too much,
also from frozen sets, the latter releases a set of which enough is gone.
-/
namespace MCM.Thaw
open MCM MCM.MachineSet MCM.Freeze

/-! ## Independent specification -/

/-- Machine sets and deployments, and the machines of each set. What machineset.go:333-452 and machine_safety.go:199-279 read and write. -/
structure W where
  objs : Store
  pop : String → List Machine

/-- the machines as the safety controller sees them: with the labels of the template and their set as owner; machine_safety.go:215-226 -/
def machinesOf (sets : List FSet) (pop : String → List Machine) : List FMachine :=
  sets.flatMap fun f => (pop f.name).map fun _ => { labels := f.tmpl, owners := [f.name] }

/-- An undisturbed run of the machine set controller for one set (machineset.go:333-452, 665-742; all calls succeed), after which those machines that are being deleted and not `stuck`
disappear. -/
def Turn (stuck : Machine → Bool) (ms : MSet) (w w' : List Machine) : Prop :=
  ∃ w1, MachineSet.Round ms w w1 ∧ w' = w1.filter fun m => !m.deleting || stuck m

/-- a turn for every set, and then an undisturbed run of the safety controller, machine_safety.go:38-72 -/
structure Round (o : Opts) (owner : String → Option String) (ch : String → List String) (stuck : Machine → Bool) (w w' : W) : Prop where
  turns : ∀ f ∈ w.objs.sets, Turn stuck (Guard.msOf f) (w.pop f.name) (w'.pop f.name)
  check : w'.objs = idealRun o (machinesOf w.objs.sets w'.pop) owner ch w.objs

/-- so many rounds -/
inductive Rounds (o : Opts) (owner : String → Option String) (ch : String → List String) (stuck : Machine → Bool) : Nat → W → W → Prop
  | zero (w) : Rounds o owner ch stuck 0 w w
  | succ {n w w1 w2} : Round o owner ch stuck w w1 → Rounds o owner ch stuck n w1 w2 → Rounds o owner ch stuck (n + 1) w w2

/-- machines of a set: names are unique, machines in service are not being deleted, terminating ones are -/
structure Sane (w : List Machine) : Prop where
  wf : WF w
  terminating : ∀ m ∈ w, m.phase = .terminating → m.deleting = true

/-- what is assumed of the start: names identify sets, labels are maps, nobody asks to unfreeze, sizes are not negative, and every set has a limit, by which it does not ask for more than its
deployment may have in all -/
structure Start (o : Opts) (owner : String → Option String) (ch : String → List String) (w : W) : Prop where
  names : (w.objs.sets.map (·.name)).Nodup
  maps : ∀ s ∈ w.objs.sets, (s.tmpl.map Prod.fst).Nodup
  sets_ann : ∀ s ∈ w.objs.sets, s.ann = false
  deps_ann : ∀ d ∈ w.objs.deps, d.ann = false
  sizes : ∀ s ∈ w.objs.sets, 0 ≤ s.replicas
  limits : ∀ s ∈ w.objs.sets, ∃ h, Limit o (fresh [] owner ch w.objs) s h
  modest : ∀ s ∈ w.objs.sets, ∀ d surge g, depOf (fresh [] owner ch w.objs) s = some d → d.rolling = some surge → Rolling.scaledValue surge d.replicas true = some g →
    s.replicas ≤ d.replicas + g
  pops : ∀ s ∈ w.objs.sets, Sane (w.pop s.name)

/-! ## One set -/

theorem prepare_deleting (m : Machine) (o : TermOutcome) (ho : o.deleteOk = true) : (prepareMachineForDeletion o m).deleting = true := by
  unfold prepareMachineForDeletion
  split
  · assumption
  · dsimp only
    split <;> simp

theorem survivor {o : String → TermOutcome} (ho : ∀ n, o n = { deleteOk := true, statusOk := true }) {T w : List Machine} {m : Machine} (hm : m ∈ terminateMachines o T w)
    (hd : m.deleting = false) : m ∈ w ∧ m.name ∉ T.map Machine.name := by
  unfold terminateMachines at hm
  obtain ⟨a, ha, rfl⟩ := List.mem_map.1 hm
  split at hd
  · rw [prepare_deleting _ _ (by rw [ho])] at hd; cases hd
  · rename_i h; rw [if_neg h]; exact ⟨ha, h⟩

theorem live_eq {ms : MSet} {w w' : List Machine} (hs : Sane w) (ht : Turn (fun _ => false) ms w w') :
    Sane w' ∧ (∀ m ∈ w', SpecLive m ∧ m.deleting = false) ∧
    w'.length - ms.replicas = (specLiveCount w - ms.replicas) - min 100 (specLiveCount w - ms.replicas) ∧
    (ms.freezeLabel ≠ "True" → ms.replicas - w'.length = (ms.replicas - specLiveCount w) - min 100 (ms.replicas - specLiveCount w)) := by
  obtain ⟨w1, hr, rfl⟩ := ht
  have hr0 := hr
  obtain ⟨srt, createOut, termOut, new, hsrt, hc, ht, hnew, hfresh, rfl⟩ := hr.run
  have hso : ∀ n, (termOut n).statusOk = true := by intro n; rw [ht]
  have hst : (manageReplicas srt createOut w ms).staleTerminated = w.filter isStale := staleTerminated_eq ..
  have hnd : ∀ m ∈ w, isLive m = true → m.deleting = false := fun m hm hl => hs.wf.live m hm ((isLive_iff m).1 hl)
  have hnd1 := live_not_deleting_terminate termOut (w.filter isStale) w hnd hso
  have hnd2 := live_not_deleting_terminate termOut (manageReplicas srt createOut w ms).victims _ hnd1 hso
  have hwf : WF (apply termOut (manageReplicas srt createOut w ms) new w) := by
    refine ⟨?_, ?_⟩
    · unfold apply
      rw [List.map_append, names_terminate, names_terminate, ← List.map_append]
      exact hfresh.names
    · intro m hm hl
      unfold apply at hm
      rw [hst] at hm
      rcases List.mem_append.1 hm with hm | hm
      · exact hnd2 m hm ((isLive_iff m).2 hl)
      · exact (hfresh.newLive m hm).2
  have hlive : ∀ m ∈ apply termOut (manageReplicas srt createOut w ms) new w, m.deleting = false → SpecLive m := by
    intro m hm hd
    unfold apply at hm
    rcases List.mem_append.1 hm with hm | hm
    · obtain ⟨h1, _⟩ := survivor ht hm hd
      obtain ⟨h2, h3⟩ := survivor ht h1 hd
      rw [hst] at h3
      refine ⟨fun h => h3 (List.mem_map.2 ⟨m, List.mem_filter.2 ⟨h2, (isStale_iff m).2 h⟩, rfl⟩), fun h => ?_⟩
      rw [hs.terminating m h2 h] at hd; cases hd
    · exact (hfresh.newLive m hm).1
  have hfil : (apply termOut (manageReplicas srt createOut w ms) new w).filter (fun m => !m.deleting || false) =
      (apply termOut (manageReplicas srt createOut w ms) new w).filter isLive := by
    refine List.filter_congr fun m hm => ?_
    cases hd : m.deleting with
    | false => simpa using ((isLive_iff m).2 (hlive m hm hd)).symm
    | true =>
      cases hl : isLive m with
      | false => rfl
      | true => have := hwf.live m hm ((isLive_iff m).1 hl); rw [hd] at this; cases this
  have hlen : ((apply termOut (manageReplicas srt createOut w ms) new w).filter (fun m => !m.deleting || false)).length =
      specLiveCount (apply termOut (manageReplicas srt createOut w ms) new w) := by rw [hfil, specLiveCount_eq]
  have hall : ∀ m ∈ (apply termOut (manageReplicas srt createOut w ms) new w).filter (fun m => !m.deleting || false), SpecLive m ∧ m.deleting = false := by
    intro m hm
    rw [List.mem_filter] at hm
    have hd : m.deleting = false := by simpa using hm.2
    exact ⟨hlive m hm.1 hd, hd⟩
  obtain ⟨np1, np2⟩ := C02_never_past_desired srt createOut termOut hsrt w new ms hnew hfresh
  refine ⟨⟨⟨hwf.names.sublist (List.filter_sublist.map _), fun m hm _ => (hall m hm).2⟩, fun m hm h => absurd h (hall m hm).1.2⟩, hall, ?_, ?_⟩
  · rw [hlen]
    by_cases hge : ms.replicas ≤ specLiveCount w
    · have hr' : MachineSet.Round { ms with freezeLabel := "" } w (apply termOut (manageReplicas srt createOut w ms) new w) := by
        have he : manageReplicas srt createOut w { ms with freezeLabel := "" } = manageReplicas srt createOut w ms := by
          rw [specLiveCount_eq] at hge
          have hge' : ¬ (((w.filter isLive).length : Int) - ms.replicas < 0) := by omega
          unfold manageReplicas
          simp only [hge', if_false]
        exact ⟨⟨srt, createOut, termOut, new, hsrt, hc, ht, by rw [he]; exact hnew, hfresh, by rw [he]⟩⟩
      have h1 := (C02_round_progress _ (by simp) _ _ hs.wf hr').2
      have h2 := np2 hge
      unfold MachineSet.dist at h1
      dsimp only at h1
      omega
    · have := np1 (by omega)
      omega
  · intro hf
    rw [hlen]
    have h1 := (C02_round_progress ms hf _ _ hs.wf hr0).2
    unfold MachineSet.dist at h1
    by_cases hge : ms.replicas ≤ specLiveCount w
    · have := np2 hge; omega
    · have := np1 (by omega); omega

theorem all_live_count {w : List Machine} (h : ∀ m ∈ w, SpecLive m ∧ m.deleting = false) : specLiveCount w = w.length := by
  rw [specLiveCount_eq, List.filter_eq_self.2]
  intro m hm
  exact (isLive_iff m).2 (h m hm).1

/-! ## What the safety controller counts -/

theorem selects_self {m : SMap} (h : (m.map Prod.fst).Nodup) : selects m m = true := by
  unfold selects
  rw [List.all_eq_true]
  intro e he
  have : ∀ {l : SMap}, (l.map Prod.fst).Nodup → e ∈ l → List.lookup e.1 l = some e.2 := by
    intro l
    induction l with
    | nil => intro _ h; cases h
    | cons a l ih =>
      intro hn hm
      rw [List.map_cons, List.nodup_cons] at hn
      rcases List.mem_cons.1 hm with rfl | hm
      · simp [List.lookup]
      · have : e.1 ≠ a.1 := fun hh => hn.1 (List.mem_map.2 ⟨e, hm, hh⟩)
        rw [List.lookup, show (e.1 == a.1) = false by simpa using this]
        exact ih hn.2 hm
  rw [this h he]
  simp

theorem count_machines (sets : List FSet) (pop : String → List Machine) (owner : String → Option String) (ch : String → List String) (st : Store)
    (hn : (sets.map (·.name)).Nodup) {s : FSet} (hs : s ∈ sets) (hm : (s.tmpl.map Prod.fst).Nodup) :
    count (fresh (machinesOf sets pop) owner ch st) s = ((pop s.name).length : Int) := by
  have zero : ∀ l : List FSet, (∀ f ∈ l, f.name ≠ s.name) →
      ((machinesOf l pop).map fun m => if selects s.tmpl m.labels then (m.owners.filter fun o => o == s.name).length else 0).sum = 0 := by
    intro l h
    induction l with
    | nil => rfl
    | cons f l ih =>
      unfold machinesOf at ih ⊢
      rw [List.flatMap_cons, List.map_append, List.sum_append, ih fun g hg => h g (List.mem_cons_of_mem _ hg)]
      have hf := h f List.mem_cons_self
      generalize pop f.name = p
      induction p with
      | nil => rfl
      | cons a p ihp => simp [hf]
  have main : ∀ l : List FSet, (l.map (·.name)).Nodup → s ∈ l →
      ((machinesOf l pop).map fun m => if selects s.tmpl m.labels then (m.owners.filter fun o => o == s.name).length else 0).sum = (pop s.name).length := by
    intro l hn hs
    induction l with
    | nil => cases hs
    | cons f l ih =>
      rw [List.map_cons, List.nodup_cons] at hn
      have hc : machinesOf (f :: l) pop = ((pop f.name).map fun _ => ({ labels := f.tmpl, owners := [f.name] } : FMachine)) ++ machinesOf l pop := rfl
      rw [hc, List.map_append, List.sum_append]
      rcases List.mem_cons.1 hs with rfl | hs
      · rw [zero l fun g hg hh => hn.1 (List.mem_map.2 ⟨g, hg, hh⟩), Nat.add_zero]
        generalize pop s.name = p
        induction p with
        | nil => rfl
        | cons a p ihp =>
          rw [List.map_cons, List.map_cons, List.sum_cons, ihp, if_pos (selects_self hm)]
          simp only [List.length_cons]
          have : ([s.name].filter fun o => o == s.name).length = 1 := by simp
          omega
      · rw [ih hn.2 hs]
        have hf : f.name ≠ s.name := fun hh => hn.1 (List.mem_map.2 ⟨s, hs, hh.symm⟩)
        have h0 := zero [f] (by intro g hg; obtain rfl := List.mem_singleton.1 hg; exact hf)
        unfold machinesOf at h0
        rw [List.flatMap_cons, List.flatMap_nil, List.append_nil] at h0
        omega
  unfold count fresh
  dsimp only
  rw [main sets hn hs]

/-! ## Rounds -/

/-- in terms of sizes: the limit leaves room for the set and the margin -/
def Room (o : Opts) (owner : String → Option String) (ch : String → List String) (w : W) : Prop :=
  ∀ s ∈ w.objs.sets, ∃ h, higher o (fresh [] owner ch w.objs) s = .ok h ∧ s.replicas + o.down ≤ h

theorem room_of_start {o : Opts} {owner ch} {w : W} (hup : o.down ≤ o.up) (hs : Start o owner ch w) : Room o owner ch w := by
  intro s hm
  obtain ⟨h, hl⟩ := hs.limits s hm
  refine ⟨h, limit_iff.1 hl, ?_⟩
  cases hl with
  | alone _ => have := hs.sizes s hm; omega
  | owned d surge g h1 h2 h3 => have := hs.modest s hm d surge g h1 h2 h3; omega

/-- what is kept in every round -/
structure Inv (o : Opts) (owner : String → Option String) (ch : String → List String) (w : W) : Prop where
  names : (w.objs.sets.map (·.name)).Nodup
  maps : ∀ s ∈ w.objs.sets, (s.tmpl.map Prod.fst).Nodup
  sets_ann : ∀ s ∈ w.objs.sets, s.ann = false
  deps_ann : ∀ d ∈ w.objs.deps, d.ann = false
  sizes : ∀ s ∈ w.objs.sets, 0 ≤ s.replicas
  room : Room o owner ch w
  pops : ∀ s ∈ w.objs.sets, Sane (w.pop s.name)

theorem higher_mach (o : Opts) (m : List FMachine) (owner ch) (st : Store) (s : FSet) : higher o (fresh m owner ch st) s = higher o (fresh [] owner ch st) s := rfl

theorem quiet_of {o : Opts} {owner ch} {w : W} (hi : Inv o owner ch w) (m : List FMachine) : Quiet o m owner ch w.objs where
  names := hi.names
  limits := fun s hs => by
    obtain ⟨h, h1, _⟩ := hi.room s hs
    exact ⟨h, limit_iff.2 (by rw [higher_mach]; exact h1)⟩
  sets_ann := hi.sets_ann
  deps_ann := hi.deps_ann

/-- the set before and after -/
def Same (f f' : FSet) : Prop := f'.name = f.name ∧ f'.replicas = f.replicas ∧ f'.tmpl = f.tmpl

theorem check_same {o : Opts} {owner ch} {w : W} (hi : Inv o owner ch w) (m : List FMachine) :
    (∀ f' ∈ (idealRun o m owner ch w.objs).sets, ∃ f ∈ w.objs.sets, Same f f') ∧ (idealRun o m owner ch w.objs).sets.map (·.name) = w.objs.sets.map (·.name) := by
  obtain ⟨_, h⟩ := idealRun_sets (quiet_of hi m)
  rcases h with ⟨_, h⟩ | ⟨s, _, b, _, h⟩
  · rw [h]; exact ⟨fun f hf => ⟨f, hf, rfl, rfl, rfl⟩, rfl⟩
  · rw [h]
    constructor
    · intro f' hf'
      obtain ⟨f, hf, rfl⟩ := List.mem_map.1 hf'
      refine ⟨f, hf, ?_⟩
      split <;> exact ⟨rfl, rfl, rfl⟩
    · rw [List.map_map]
      refine List.map_congr_left fun f _ => ?_
      show FSet.name (if _ then _ else _) = _
      split <;> rfl

theorem inv_round {o : Opts} {owner ch} (hd : o.down > 0) {w w' : W} (hi : Inv o owner ch w) (hr : Round o owner ch (fun _ => false) w w') : Inv o owner ch w' := by
  obtain ⟨hsame, hnames⟩ := check_same hi (machinesOf w.objs.sets w'.pop)
  obtain ⟨hq, _⟩ := idealRun_progress hd (quiet_of hi (machinesOf w.objs.sets w'.pop))
  obtain ⟨hsd, _⟩ := idealRun_sets (quiet_of hi (machinesOf w.objs.sets w'.pop))
  rw [← hr.check] at hsame hnames hq hsd
  refine ⟨by rw [hnames]; exact hi.names, ?_, hq.sets_ann, hq.deps_ann, ?_, ?_, ?_⟩
  · intro f' hf'
    obtain ⟨f, hf, _, _, h3⟩ := hsame f' hf'
    rw [h3]; exact hi.maps f hf
  · intro f' hf'
    obtain ⟨f, hf, _, h2, _⟩ := hsame f' hf'
    rw [h2]; exact hi.sizes f hf
  · intro f' hf'
    obtain ⟨f, hf, h1, h2, _⟩ := hsame f' hf'
    obtain ⟨h, h3, h4⟩ := hi.room f hf
    refine ⟨h, ?_, by rw [h2]; exact h4⟩
    rw [higher_congr hsd f f' h1 h2]
    exact h3
  · intro f' hf'
    obtain ⟨f, hf, h1, _, _⟩ := hsame f' hf'
    rw [h1]
    exact (live_eq (hi.pops f hf) (hr.turns f hf)).1

/-- no set has more than `E` machines in service too many -/
def Excess (E : Nat) (w : W) : Prop := ∀ f ∈ w.objs.sets, specLiveCount (w.pop f.name) ≤ f.replicas.toNat + E

theorem excess_round {o : Opts} {owner ch} {w w' : W} (hi : Inv o owner ch w) (hr : Round o owner ch (fun _ => false) w w') {E : Nat} (h : Excess E w) :
    (∀ f ∈ w.objs.sets, (w'.pop f.name).length ≤ f.replicas.toNat + (E - 100)) ∧ Excess (E - 100) w' := by
  have h1 : ∀ f ∈ w.objs.sets, (w'.pop f.name).length ≤ f.replicas.toNat + (E - 100) := by
    intro f hf
    obtain ⟨_, _, h3, _⟩ := live_eq (hi.pops f hf) (hr.turns f hf)
    have := h f hf
    have hms : (Guard.msOf f).replicas = f.replicas.toNat := rfl
    rw [hms] at h3
    omega
  refine ⟨h1, ?_⟩
  intro f' hf'
  obtain ⟨hsame, _⟩ := check_same hi (machinesOf w.objs.sets w'.pop)
  rw [← hr.check] at hsame
  obtain ⟨f, hf, h2, h3, _⟩ := hsame f' hf'
  rw [h2, h3, all_live_count (live_eq (hi.pops f hf) (hr.turns f hf)).2.1]
  exact h1 f hf

/-- frozen in one way or the other -/
def icy (f : FSet) : Bool := f.label || f.cond

/-- number of frozen sets -/
def ice (w : W) : Nat := w.objs.sets.countP icy

theorem decide_small {o : Opts} {owner ch} {w w' : W} (hd : o.down > 0) (hi : Inv o owner ch w)
    (h : ∀ f ∈ w.objs.sets, (w'.pop f.name).length ≤ f.replicas.toNat) {f : FSet} (hf : f ∈ w.objs.sets) :
    decideSet o (fresh (machinesOf w.objs.sets w'.pop) owner ch w.objs) f = if icy f then .unfreeze else .skip := by
  obtain ⟨l, h1, h2⟩ := hi.room f hf
  have hc := count_machines w.objs.sets w'.pop owner ch w.objs hi.names hf (hi.maps f hf)
  have hl := h f hf
  have hz := hi.sizes f hf
  unfold decideSet
  rw [higher_mach, h1]
  dsimp only
  rw [hc]
  have hA : ¬ ((((w'.pop f.name).length : Nat) : Int) ≥ l) := by omega
  have hB : (((w'.pop f.name).length : Nat) : Int) ≤ l - o.down := by omega
  rw [if_neg (by simp [hA])]
  simp only [hB, decide_true, Bool.true_and]
  rfl

theorem ice_round {o : Opts} {owner ch} {w w' : W} (hd : o.down > 0) (hi : Inv o owner ch w) (hr : Round o owner ch (fun _ => false) w w')
    (h : ∀ f ∈ w.objs.sets, (w'.pop f.name).length ≤ f.replicas.toNat) : ice w' ≤ ice w - 1 := by
  obtain ⟨_, hc⟩ := idealRun_sets (quiet_of hi (machinesOf w.objs.sets w'.pop))
  rw [← hr.check] at hc
  rcases hc with ⟨hall, hs⟩ | ⟨s, hs, b, hb, hset⟩
  · have : ice w = 0 := by
      unfold ice
      rw [List.countP_eq_zero]
      intro f hf hicy
      have := hall f hf
      rw [decide_small hd hi h hf, if_pos hicy] at this
      cases this
    have h2 : ice w' = ice w := by unfold ice; rw [hs]
    omega
  · rw [decide_small hd hi h hs] at hb
    have hbf : b = false := by
      cases b with
      | false => rfl
      | true => split at hb <;> cases hb
    subst hbf
    have hicy : icy s = true := by
      cases hi : icy s with
      | true => rfl
      | false => rw [hi] at hb; simp at hb
    have : ice w' < ice w := by
      unfold ice
      rw [hset]
      have hle : ∀ l : List FSet, (l.map fun t => if t.name == s.name then { t with cond := false, label := false, ann := false } else t).countP icy ≤ l.countP icy := by
        intro l
        induction l with
        | nil => simp
        | cons a l ih =>
          rw [List.map_cons, List.countP_cons, List.countP_cons]
          split
          · have : icy { a with cond := false, label := false, ann := false } = false := rfl
            rw [this]; simp only [Bool.false_eq_true, if_false]; omega
          · omega
      have hlt : ∀ l : List FSet, s ∈ l → (l.map fun t => if t.name == s.name then { t with cond := false, label := false, ann := false } else t).countP icy < l.countP icy := by
        intro l hm
        induction l with
        | nil => cases hm
        | cons a l ih =>
          rw [List.map_cons, List.countP_cons, List.countP_cons]
          rcases List.mem_cons.1 hm with rfl | hm
          · rw [if_pos (beq_self_eq_true s.name), hicy]
            have : icy { s with cond := false, label := false, ann := false } = false := rfl
            rw [this]
            have := hle l
            simp only [Bool.false_eq_true, if_false, if_true]; omega
          · have := ih hm
            split
            · have : icy { a with cond := false, label := false, ann := false } = false := rfl
              rw [this]; simp only [Bool.false_eq_true, if_false]; omega
            · omega
      exact hlt _ hs
    omega

/-- no set misses more than `L` machines -/
def Lack (L : Nat) (w : W) : Prop := ∀ f ∈ w.objs.sets, f.replicas.toNat ≤ specLiveCount (w.pop f.name) + L

theorem lack_round {o : Opts} {owner ch} {w w' : W} (hi : Inv o owner ch w) (hr : Round o owner ch (fun _ => false) w w') (hz : ice w = 0) {L : Nat} (h : Lack L w) :
    Lack (L - 100) w' ∧ (∀ f' ∈ w'.objs.sets, ∀ m ∈ w'.pop f'.name, SpecLive m ∧ m.deleting = false) := by
  obtain ⟨hsame, _⟩ := check_same hi (machinesOf w.objs.sets w'.pop)
  rw [← hr.check] at hsame
  constructor
  · intro f' hf'
    obtain ⟨f, hf, h2, h3, _⟩ := hsame f' hf'
    obtain ⟨_, h4, _, h5⟩ := live_eq (hi.pops f hf) (hr.turns f hf)
    have hno : icy f = false := by
      unfold ice at hz
      rw [List.countP_eq_zero] at hz
      simpa using hz f hf
    have hlab : f.label = false := by
      unfold icy at hno
      cases hl : f.label with
      | false => rfl
      | true => rw [hl] at hno; simp at hno
    have hms : (Guard.msOf f).replicas = f.replicas.toNat := rfl
    have h5 := h5 (by unfold Guard.msOf; rw [hlab]; simp)
    have := h f hf
    rw [hms] at h5
    rw [h2, h3, all_live_count h4]
    omega
  · intro f' hf'
    obtain ⟨f, hf, h2, _, _⟩ := hsame f' hf'
    rw [h2]
    exact (live_eq (hi.pops f hf) (hr.turns f hf)).2.1

/-! ## C136 -/

theorem same_rounds {o : Opts} {owner ch} (hd : o.down > 0) {n : Nat} {w w' : W} (hr : Rounds o owner ch (fun _ => false) n w w') (hi : Inv o owner ch w) :
    Inv o owner ch w' ∧ (∀ f' ∈ w'.objs.sets, ∃ f ∈ w.objs.sets, Same f f') := by
  induction hr with
  | zero w => exact ⟨hi, fun f hf => ⟨f, hf, rfl, rfl, rfl⟩⟩
  | @succ n w w1 w2 h1 _ ih =>
    obtain ⟨i2, s2⟩ := ih (inv_round hd hi h1)
    refine ⟨i2, fun f2 hf2 => ?_⟩
    obtain ⟨f1, hf1, a, b, c⟩ := s2 f2 hf2
    obtain ⟨hsame, _⟩ := check_same hi (machinesOf w.objs.sets w1.pop)
    rw [← h1.check] at hsame
    obtain ⟨f, hf, a', b', c'⟩ := hsame f1 hf1
    exact ⟨f, hf, a.trans a', b.trans b', c.trans c'⟩

theorem phase1 {o : Opts} {owner ch} (hd : o.down > 0) {n : Nat} {w w' : W} (hr : Rounds o owner ch (fun _ => false) n w w') (hi : Inv o owner ch w) {E : Nat} (h : Excess E w) :
    Excess (E - 100 * n) w' := by
  induction hr generalizing E with
  | zero w => exact h
  | succ h1 _ ih =>
    have := ih (inv_round hd hi h1) (excess_round hi h1 h).2
    rw [Nat.sub_sub] at this
    rw [Nat.mul_succ, Nat.add_comm]
    exact this

theorem phase2 {o : Opts} {owner ch} (hd : o.down > 0) {n : Nat} {w w' : W} (hr : Rounds o owner ch (fun _ => false) n w w') (hi : Inv o owner ch w) (h : Excess 0 w) :
    ice w' ≤ ice w - n := by
  induction hr with
  | zero w => omega
  | succ h1 _ ih =>
    obtain ⟨e1, e2⟩ := excess_round hi h1 h
    have := ih (inv_round hd hi h1) e2
    have := ice_round hd hi h1 (by simpa using e1)
    omega

theorem phase3 {o : Opts} {owner ch} (hd : o.down > 0) {n : Nat} {w w' : W} (hr : Rounds o owner ch (fun _ => false) n w w') (hi : Inv o owner ch w) (h : Excess 0 w) (hz : ice w = 0)
    {L : Nat} (hl : Lack L w) : Lack (L - 100 * n) w' := by
  induction hr generalizing L with
  | zero w => exact hl
  | succ h1 _ ih =>
    obtain ⟨e1, e2⟩ := excess_round hi h1 h
    have hz' := ice_round hd hi h1 (by simpa using e1)
    have := ih (inv_round hd hi h1) e2 (by omega) (lack_round hi h1 hz hl).1
    rw [Nat.sub_sub] at this
    rw [Nat.mul_succ, Nat.add_comm]
    exact this

theorem split_rounds {o : Opts} {owner ch stuck} {a b : Nat} {w w' : W} (hr : Rounds o owner ch stuck (a + b) w w') :
    ∃ v, Rounds o owner ch stuck a w v ∧ Rounds o owner ch stuck b v w' := by
  induction a generalizing w with
  | zero => exact ⟨w, .zero w, by simpa using hr⟩
  | succ a ih =>
    rw [show a + 1 + b = (a + b) + 1 by omega] at hr
    cases hr with
    | succ h1 h2 =>
      obtain ⟨v, h3, h4⟩ := ih h2
      exact ⟨v, .succ h1 h3, h4⟩

theorem start_inv {o : Opts} {owner ch} {w : W} (hup : o.down ≤ o.up) (hs : Start o owner ch w) : Inv o owner ch w :=
  ⟨hs.names, hs.maps, hs.sets_ann, hs.deps_ann, hs.sizes, room_of_start hup hs, hs.pops⟩

/-- Rounds neither add nor remove a set, nor do they change its size or template. -/
theorem C136_sets_kept (o : Opts) (hd : o.down > 0) (hup : o.down ≤ o.up) (owner : String → Option String) (ch : String → List String) (w w' : W) (hs : Start o owner ch w) (n : Nat)
    (hr : Rounds o owner ch (fun _ => false) n w w') :
    w'.objs.sets.map (fun f => (f.name, f.replicas, f.tmpl)) = w.objs.sets.map fun f => (f.name, f.replicas, f.tmpl) := by
  have hi := start_inv hup hs
  clear hs
  induction hr with
  | zero w => rfl
  | @succ n w w1 w2 h1 _ ih =>
    rw [ih (inv_round hd hi h1), h1.check]
    obtain ⟨_, h⟩ := idealRun_sets (quiet_of hi (machinesOf w.objs.sets w1.pop))
    rcases h with ⟨_, h⟩ | ⟨s, _, b, _, h⟩
    · rw [h]
    · rw [h, List.map_map]
      refine List.map_congr_left fun f _ => ?_
      dsimp only [Function.comp]
      split <;> rfl

/-- However many machines there are too many and whichever sets are frozen, undisturbed controllers remove the excess, release every set, and then every set has exactly the machines it
asks for, all in service: after as many rounds as the excess takes at a hundred a round, one for each set, and those that the sizes take at a hundred a round. In full – without the
conditions on the margin and on machines that cannot be deleted – this is false: `C136_margin_false`, `C136_stuck_false`. -/
theorem C136_freeze_ends_partial (o : Opts) (hd : o.down > 0) (hup : o.down ≤ o.up) (owner : String → Option String) (ch : String → List String) (w w' : W) (hs : Start o owner ch w)
    (E R n : Nat) (hE : Excess E w) (hR : ∀ f ∈ w.objs.sets, f.replicas.toNat ≤ R) (hr : Rounds o owner ch (fun _ => false) n w w')
    (hn : n ≥ (E + 99) / 100 + w.objs.sets.length + (R + 99) / 100 + 1) :
    ∀ f ∈ w'.objs.sets, f.label = false ∧ f.cond = false ∧ ((w'.pop f.name).length : Int) = f.replicas ∧ ∀ m ∈ w'.pop f.name, SpecLive m ∧ m.deleting = false := by
  have hi := start_inv hup hs
  obtain ⟨k, hk⟩ : ∃ k, n = ((E + 99) / 100) + (w.objs.sets.length + ((k + (R + 99) / 100) + 1)) := ⟨n - ((E + 99) / 100 + w.objs.sets.length + (R + 99) / 100 + 1), by omega⟩
  rw [hk] at hr
  obtain ⟨v1, r1, hr⟩ := split_rounds hr
  obtain ⟨v2, r2, hr⟩ := split_rounds hr
  obtain ⟨v3, r3, hr⟩ := split_rounds hr
  obtain ⟨i1, s1⟩ := same_rounds hd r1 hi
  obtain ⟨i2, s2⟩ := same_rounds hd r2 i1
  obtain ⟨i3, s3⟩ := same_rounds hd r3 i2
  have e1 : Excess 0 v1 := by
    have := phase1 hd r1 hi hE
    rwa [show E - 100 * ((E + 99) / 100) = 0 by omega] at this
  have e2 : Excess 0 v2 := by have := phase1 hd r2 i1 e1; simpa using this
  have e3 : Excess 0 v3 := by have := phase1 hd r3 i2 e2; simpa using this
  have hlen : v1.objs.sets.length = w.objs.sets.length := by
    have key : ∀ {n : Nat} {a b : W}, Rounds o owner ch (fun _ => false) n a b → Inv o owner ch a → b.objs.sets.length = a.objs.sets.length := by
      intro n a b h
      induction h with
      | zero w => intro _; rfl
      | @succ n w w1 w2 h1 _ ih =>
        intro hi
        rw [ih (inv_round hd hi h1)]
        have := (check_same hi (machinesOf w.objs.sets w1.pop)).2
        rw [← h1.check] at this
        simpa using congrArg List.length this
    exact key r1 hi
  have z2 : ice v2 = 0 := by
    have h1 := phase2 hd r2 i1 e1
    have h2 : ice v1 ≤ v1.objs.sets.length := List.countP_le_length
    omega
  have l2 : Lack R v2 := by
    intro f hf
    obtain ⟨g, hg, _, b, _⟩ := s2 f hf
    obtain ⟨g', hg', _, b', _⟩ := s1 g hg
    have := hR g' hg'
    rw [b, b']
    omega
  have z3 : ice v3 = 0 := by have := phase2 hd r3 i2 e2; omega
  have l3 : Lack 0 v3 := by
    have := phase3 hd r3 i2 e2 z2 l2
    rwa [show R - 100 * (k + (R + 99) / 100) = 0 by omega] at this
  cases hr with
  | @succ _ _ w1 _ h1 h2 =>
    cases h2
    obtain ⟨a1, a2⟩ := excess_round i3 h1 e3
    obtain ⟨b1, b2⟩ := lack_round i3 h1 z3 l3
    have z4 : ice w' = 0 := by have := ice_round hd i3 h1 (by simpa using a1); omega
    have i4 := inv_round hd i3 h1
    intro f hf
    have hno : icy f = false := by
      unfold ice at z4
      rw [List.countP_eq_zero] at z4
      simpa using z4 f hf
    unfold icy at hno
    rw [Bool.or_eq_false_iff] at hno
    refine ⟨hno.1, hno.2, ?_, b2 f hf⟩
    have x1 := a2 f hf
    have x2 := b1 f hf
    rw [all_live_count (b2 f hf)] at x1 x2
    have := i4.sizes f hf
    omega

/-! ### There are such rounds -/

theorem name_exists (l : List String) : ∃ n, n ∉ l := by
  have h : ∀ l : List String, ∃ k, ∀ s ∈ l, s.length ≤ k := by
    intro l
    induction l with
    | nil => exact ⟨0, fun _ h => by cases h⟩
    | cons a l ih =>
      obtain ⟨k, hk⟩ := ih
      refine ⟨k + a.length, fun s hs => ?_⟩
      rcases List.mem_cons.1 hs with rfl | hs
      · omega
      · have := hk s hs; omega
  obtain ⟨k, hk⟩ := h l
  refine ⟨String.ofList (List.replicate (k + 1) 'x'), fun hm => ?_⟩
  have := hk _ hm
  simp at this
  omega

theorem new_exists (w : List Machine) (hw : (w.map Machine.name).Nodup) : ∀ k : Nat, ∃ new : List Machine, new.length = k ∧ Fresh w new
  | 0 => ⟨[], rfl, by simpa using hw, fun _ h => by cases h⟩
  | k + 1 => by
    obtain ⟨new, h1, h2, h3⟩ := new_exists w hw k
    obtain ⟨n, hn⟩ := name_exists ((w ++ new).map Machine.name)
    refine ⟨new ++ [{ name := n }], by simp [h1], ?_, ?_⟩
    · rw [← List.append_assoc, List.map_append, List.map_singleton]
      refine List.nodup_append.2 ⟨h2, by simp, ?_⟩
      intro a ha b hb
      obtain rfl := List.mem_singleton.1 hb
      intro he
      exact hn (he ▸ ha)
    · intro m hm
      rcases List.mem_append.1 hm with hm | hm
      · exact h3 m hm
      · obtain rfl := List.mem_singleton.1 hm
        exact ⟨(isLive_iff _).1 rfl, rfl⟩

theorem turn_exists (stuck : Machine → Bool) (ms : MSet) (w : List Machine) (hw : (w.map Machine.name).Nodup) : ∃ w', Turn stuck ms w w' := by
  obtain ⟨new, h1, h2⟩ := new_exists w hw (landedCount (fun _ => ⟨.none, true⟩) (manageReplicas id (fun _ => ⟨.none, true⟩) w ms).issued)
  exact ⟨_, _, ⟨⟨id, fun _ => ⟨.none, true⟩, fun _ => ⟨true, true⟩, new, fun _ => List.Perm.refl _, fun _ => rfl, fun _ => rfl, h1, h2, rfl⟩⟩, rfl⟩

/-- From every start there are rounds, as many as wanted: the conclusion of `C136_freeze_ends_partial` is reached. -/
theorem C136_rounds_exist (o : Opts) (hd : o.down > 0) (hup : o.down ≤ o.up) (owner : String → Option String) (ch : String → List String) (w : W) (hs : Start o owner ch w) (n : Nat) :
    ∃ w', Rounds o owner ch (fun _ => false) n w w' := by
  have key : ∀ (n : Nat) (w : W), Inv o owner ch w → ∃ w', Rounds o owner ch (fun _ => false) n w w' := by
    intro n
    induction n with
    | zero => intro w _; exact ⟨w, .zero w⟩
    | succ n ih =>
      intro w hi
      have h1 : ∀ f : FSet, ∃ p, f ∈ w.objs.sets → Turn (fun _ => false) (Guard.msOf f) (w.pop f.name) p := by
        intro f
        by_cases hf : f ∈ w.objs.sets
        · obtain ⟨p, hp⟩ := turn_exists (fun _ => false) (Guard.msOf f) _ (hi.pops f hf).wf.names
          exact ⟨p, fun _ => hp⟩
        · exact ⟨[], fun h => absurd h hf⟩
      choose p hp using h1
      let pop : String → List Machine := fun n => ((w.objs.sets.find? fun f => f.name == n).map p).getD []
      have hpop : ∀ f ∈ w.objs.sets, pop f.name = p f := by
        intro f hf
        have : w.objs.sets.find? (fun g => g.name == f.name) = some f := by
          cases hc : w.objs.sets.find? (fun g => g.name == f.name) with
          | none => have := List.find?_eq_none.1 hc f hf; simp at this
          | some g =>
            have h1 := List.find?_some hc
            have h2 := List.mem_of_find?_eq_some hc
            have h3 : g.name = f.name := by simpa using h1
            rw [List.inj_on_of_nodup_map hi.names h2 hf h3]
        show ((w.objs.sets.find? fun g => g.name == f.name).map p).getD [] = p f
        rw [this]; rfl
      have hr : Round o owner ch (fun _ => false) w ⟨idealRun o (machinesOf w.objs.sets pop) owner ch w.objs, pop⟩ :=
        ⟨fun f hf => by rw [show (W.mk _ pop).pop f.name = p f from hpop f hf]; exact hp f hf, rfl⟩
      obtain ⟨w', hw'⟩ := ih _ (inv_round hd hi hr)
      exact ⟨w', .succ hr hw'⟩
  exact key n w (start_inv hup hs)

/-- a set of three, frozen, with ten machines, one of which has failed, and one that is about to go; an unfrozen set without machines -/
def exW : W where
  objs := { sets := [{ name := "s", replicas := 3, tmpl := [("app", "s")], label := true, cond := true }, { name := "t", replicas := 2, tmpl := [("app", "t")] }], deps := [] }
  pop := fun n => if n = "s" then
      { name := "m0", phase := .failed } :: { name := "m1", phase := .terminating, deleting := true } ::
        ["m2", "m3", "m4", "m5", "m6", "m7", "m8", "m9"].map fun n => { name := n, phase := .running }
    else []

theorem exW_start : Start ⟨2, 1⟩ (fun _ => none) (fun _ => []) exW where
  names := by decide
  maps := by decide
  sets_ann := by decide
  deps_ann := by intro d hd; cases hd
  sizes := by decide
  limits := fun s _ => ⟨_, .alone rfl⟩
  modest := by intro s _ d _ _ h; cases h
  pops := by
    intro s hs
    have : ∀ s ∈ exW.objs.sets, ((exW.pop s.name).map Machine.name).Nodup ∧ (∀ m ∈ exW.pop s.name, isLive m = true → m.deleting = false) ∧
      ∀ m ∈ exW.pop s.name, m.phase = .terminating → m.deleting = true := by decide +kernel
    obtain ⟨h1, h2, h3⟩ := this s hs
    exact ⟨⟨h1, fun m hm hl => h2 m hm ((isLive_iff m).2 hl)⟩, h3⟩

/-- the hypotheses of `C136_freeze_ends_partial` are met, and the conclusion with them -/
example : ∃ w', Rounds ⟨2, 1⟩ (fun _ => none) (fun _ => []) (fun _ => false) 5 exW w' ∧
    ∀ f ∈ w'.objs.sets, f.label = false ∧ f.cond = false ∧ ((w'.pop f.name).length : Int) = f.replicas ∧ ∀ m ∈ w'.pop f.name, SpecLive m ∧ m.deleting = false := by
  obtain ⟨w', hr⟩ := C136_rounds_exist ⟨2, 1⟩ (by decide) (by decide) _ _ exW exW_start 5
  refine ⟨w', hr, C136_freeze_ends_partial ⟨2, 1⟩ (by decide) (by decide) _ _ exW w' exW_start 5 3 5 ?_ ?_ hr (by decide)⟩
  · intro f hf
    rw [specLiveCount_eq]
    revert f
    decide +kernel
  · decide

/-! ### What the theorem excludes -/

theorem for_ever {o : Opts} {owner ch stuck} {w : W} (h : Round o owner ch stuck w w) : ∀ n, Rounds o owner ch stuck n w w
  | 0 => .zero w
  | n + 1 => .succ h (for_ever h n)

/-- a turn of a frozen set with nothing to remove -/
theorem turn_idle {stuck : Machine → Bool} {ms : MSet} {w : List Machine} (hw : (w.map Machine.name).Nodup)
    (h : manageReplicas id (fun _ => ⟨.none, true⟩) w ms = { staleTerminated := [], creation := none, victims := [], err := false })
    (hg : ∀ m ∈ w, (!m.deleting || stuck m) = true) : Turn stuck ms w w := by
  refine ⟨w, ⟨⟨id, fun _ => ⟨.none, true⟩, fun _ => ⟨true, true⟩, [], fun _ => List.Perm.refl _, fun _ => rfl, fun _ => rfl, ?_, ⟨by simpa using hw, fun _ h => by cases h⟩, ?_⟩⟩, ?_⟩
  · rw [h]; rfl
  · rw [h]; simp [apply, terminateMachines]
  · exact (List.filter_eq_self.2 hg).symm

/-- a set of a deployment for one machine, frozen, without machines -/
def exMargin : W where
  objs := { sets := [{ name := "s", replicas := 1, tmpl := [("app", "s")], label := true, cond := true }],
            deps := [{ name := "d", replicas := 1, rolling := some (some (.int 0)), label := true, cond := true }] }
  pop := fun _ => []

/-- C136 fails when the margin for unfreezing exceeds what is added for the limit (both are command line options, not compared with each other): a small frozen set stays frozen
whatever it loses, and never gets its machine. -/
theorem C136_margin_false : ∃ (o : Opts) (owner : String → Option String) (ch : String → List String) (w : W), o.down > 0 ∧ Start o owner ch w ∧ Excess 0 w ∧
    ∀ n, Rounds o owner ch (fun _ => false) n w w ∧ ∃ f ∈ w.objs.sets, f.label = true ∧ f.replicas = 1 ∧ w.pop f.name = [] := by
  refine ⟨⟨0, 2⟩, fun _ => some "d", fun _ => ["s"], exMargin, by decide, ⟨by decide, by decide, by decide, by decide, by decide, ?_, ?_, ?_⟩, ?_, fun n => ⟨for_ever ⟨?_, ?_⟩ n, ?_⟩⟩
  · intro s hs
    exact ⟨_, .owned { name := "d", replicas := 1, rolling := some (some (.int 0)), label := true, cond := true } (some (.int 0)) 0 (by rfl) rfl (by rfl)⟩
  · intro s hs d surge g h1 h2 h3
    obtain rfl : s = _ := List.mem_singleton.1 hs
    obtain rfl := Option.some.inj (h1.symm.trans (by rfl : _ = some ({ name := "d", replicas := 1, rolling := some (some (.int 0)), label := true, cond := true } : FDep)))
    obtain rfl := Option.some.inj h2
    have : g = 0 := Option.some.inj (h3.symm.trans (by rfl))
    subst this
    decide
  · intro s _; exact ⟨⟨by exact List.nodup_nil, fun m hm => by cases hm⟩, fun m hm => by cases hm⟩
  · intro f _; rw [specLiveCount_eq]; exact Nat.zero_le _
  · intro f hf
    obtain rfl : f = _ := List.mem_singleton.1 hf
    exact turn_idle (by exact List.nodup_nil) (by decide +kernel) (fun m hm => by cases hm)
  · rfl
  · exact ⟨_, List.mem_singleton.2 rfl, rfl, rfl, rfl⟩

/-- a frozen set of three, whose eight machines are all being deleted -/
def exStuck : W where
  objs := { sets := [{ name := "s", replicas := 3, tmpl := [("app", "s")], label := true, cond := true }], deps := [] }
  pop := fun _ => ["m1", "m2", "m3", "m4", "m5", "m6", "m7", "m8"].map fun n => { name := n, phase := .terminating, deleting := true }

/-- C136 fails when machines cannot be deleted: the safety controller counts machines that are being deleted like those in service, so a frozen set of which enough machines hang stays
frozen – and without a machine in service, although three are wanted –, with the default options. -/
theorem C136_stuck_false : ∃ (owner : String → Option String) (ch : String → List String) (w : W), Start ⟨2, 1⟩ owner ch w ∧ Excess 0 w ∧
    ∀ n, Rounds ⟨2, 1⟩ owner ch (fun _ => true) n w w ∧ ∃ f ∈ w.objs.sets, f.label = true ∧ f.replicas = 3 ∧ ∀ m ∈ w.pop f.name, ¬ SpecLive m := by
  refine ⟨fun _ => none, fun _ => [], exStuck, ⟨by decide, by decide, by decide, (by intro d hd; cases hd), by decide, fun s _ => ⟨_, .alone rfl⟩, ?_, ?_⟩, ?_,
    fun n => ⟨for_ever ⟨?_, ?_⟩ n, ?_⟩⟩
  · intro s _ d _ _ h; cases h
  · intro s hs
    have : ∀ s ∈ exStuck.objs.sets, ((exStuck.pop s.name).map Machine.name).Nodup ∧ (∀ m ∈ exStuck.pop s.name, isLive m = true → m.deleting = false) ∧
      ∀ m ∈ exStuck.pop s.name, m.phase = .terminating → m.deleting = true := by decide +kernel
    obtain ⟨h1, h2, h3⟩ := this s hs
    exact ⟨⟨h1, fun m hm hl => h2 m hm ((isLive_iff m).2 hl)⟩, h3⟩
  · intro f hf
    rw [specLiveCount_eq]
    revert f
    decide +kernel
  · intro f hf
    obtain rfl : f = _ := List.mem_singleton.1 hf
    exact turn_idle (by decide +kernel) (by decide +kernel) (by decide +kernel)
  · rfl
  · refine ⟨_, List.mem_singleton.2 rfl, rfl, rfl, ?_⟩
    intro m hm hl
    have : ∀ m ∈ exStuck.pop "s", isLive m = false := by decide +kernel
    have := this m hm
    rw [(isLive_iff m).2 hl] at this
    cases this

/-- a frozen set of five of a deployment for one -/
def exGreedy : W where
  objs := { sets := [{ name := "s", replicas := 5, tmpl := [("app", "s")], label := true, cond := true }],
            deps := [{ name := "d", replicas := 1, rolling := some (some (.int 0)), label := true, cond := true }] }
  pop := fun _ => ["m1", "m2", "m3"].map fun n => { name := n, phase := .running }

/-- C136 fails for a set that asks for more machines than its deployment may have in all: it is frozen before it has them, and stays so. -/
theorem C136_greedy_false : ∃ (owner : String → Option String) (ch : String → List String) (w : W), (∀ f ∈ w.objs.sets, ∃ h, Limit ⟨2, 1⟩ (fresh [] owner ch w.objs) f h) ∧
    (∀ f ∈ w.objs.sets, Sane (w.pop f.name)) ∧
    ∀ n, Rounds ⟨2, 1⟩ owner ch (fun _ => false) n w w ∧ ∃ f ∈ w.objs.sets, f.label = true ∧ f.replicas = 5 ∧ (w.pop f.name).length = 3 := by
  refine ⟨fun _ => some "d", fun _ => ["s"], exGreedy, ?_, ?_, fun n => ⟨for_ever ⟨?_, ?_⟩ n, ?_⟩⟩
  · intro s hs
    exact ⟨_, .owned { name := "d", replicas := 1, rolling := some (some (.int 0)), label := true, cond := true } (some (.int 0)) 0 (by rfl) rfl (by rfl)⟩
  · intro s hs
    have : ∀ s ∈ exGreedy.objs.sets, ((exGreedy.pop s.name).map Machine.name).Nodup ∧ (∀ m ∈ exGreedy.pop s.name, isLive m = true → m.deleting = false) ∧
      ∀ m ∈ exGreedy.pop s.name, m.phase = .terminating → m.deleting = true := by decide +kernel
    obtain ⟨h1, h2, h3⟩ := this s hs
    exact ⟨⟨h1, fun m hm hl => h2 m hm ((isLive_iff m).2 hl)⟩, h3⟩
  · intro f hf
    obtain rfl : f = _ := List.mem_singleton.1 hf
    exact turn_idle (by decide +kernel) (by decide +kernel) (by decide +kernel)
  · rfl
  · exact ⟨_, List.mem_singleton.2 rfl, rfl, rfl, rfl⟩

end MCM.Thaw
