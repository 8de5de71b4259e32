import Verif.Props.World
/-!
C113: how many machines serve while a rolling update is under way, in whole executions of all controllers.
-/
namespace MCM.World
open MCM MCM.Dispatch MCM.Rolling MCM.Template
open MCM.Termination (NameLike)

/-! ### Specification -/

/-- the machine does its work: it is Running and nobody has asked for its deletion -/
def serves : Fleet.M → Bool
  | .live _ v _ => v.st.phase == .running
  | .dying _ _ _ _ _ => false

def serving (s : Fleet.Fleet) : Nat := s.ms.countP serves

/-- the serving machines of the whole deployment -/
def servingAll (w : World) : Int := (w.sets.map fun f => (serving (w.fleet f.set.name) : Int)).sum

/-- nobody has set a deletion priority other than the default one -/
def Ordinary : Fleet.M → Prop
  | .live _ v _ => v.prio = none ∨ v.prio = some "3"
  | .dying _ _ _ _ _ => True

/-- What a run of the deployment controller sees is not ahead of things: no set is reported to have more available machines than it is to have, or than serve; and the reports
add up to the floor, or else they are exact. -/
def Cautious (floor : Int) (w : World) (seen : List FSet) : Prop :=
  (∀ f ∈ seen, f.set.avail ≤ f.set.spec ∧ f.set.avail ≤ serving (w.fleet f.set.name)) ∧
  (floor ≤ (seen.map fun f => f.set.avail).sum ∨ ∀ f ∈ seen, f.set.avail = serving (w.fleet f.set.name))

/-- One run of one of the controllers, with machines that stay healthy. `P` says what the deployment controller may see. -/
inductive Turn (P : World → List FSet → Prop) (d : FDep) (w : World) : World → Prop
  | set (f : FSet) (srt : List Machine → List Machine) (now : Int) (new : List Fleet.M) : f ∈ w.sets → (∀ l, MachineSet.IsSortOf MachineSet.less (srt l) l) →
      new.length = (Fleet.plan srt (demand f) (w.fleet f.set.name).ms).issued → (∀ m ∈ new, Fleet.Fresh m ∧ Ordinary m) →
      (((w.fleet f.set.name).ms ++ new).map Fleet.M.name).Nodup →
      Turn P d w (w.change f.set.name ((w.fleet f.set.name).after (Fleet.setRun srt now (demand f) (w.fleet f.set.name).ms) new))
  | machine (f : FSet) (l : Fleet.Lab) (s' : Fleet.Fleet) : f ∈ w.sets → l ≠ .set → Fleet.Step (demand f) (w.fleet f.set.name) l s' →
      Turn P d w (w.change f.set.name s')
  | status (f : FSet) : f ∈ w.sets → Turn P d w (w.report f.set.name)
  | deploy (e : Dispatch.Env) (seen : List FSet) : Sees w.sets seen → e.Fine seen → P w seen → Turn P d w (w.deploy d e seen)
  | gone (f : FSet) : f ∈ w.sets → f.deleting = true → (w.fleet f.set.name).ms = [] → Turn P d w (w.drop f.set.name)

inductive Turns (P : World → List FSet → Prop) (d : FDep) : World → World → Prop
  | refl (w : World) : Turns P d w w
  | tail {w w1 w2 : World} : Turns P d w w1 → Turn P d w1 w2 → Turns P d w w2

/-- as `Ready`, and no machine has failed or is marked for deletion; machines that are being deleted say so; and the machine sets that are
being deleted are to be empty, as those are that the deployment controller deletes -/
structure Calm (d : FDep) (w : World) : Prop where
  ready : Ready d w
  settled : ∀ n, Fleet.Settled (w.fleet n)
  ordinary : ∀ n, ∀ m ∈ (w.fleet n).ms, Ordinary m
  retired : ∀ f ∈ w.sets, f.deleting = true → f.set.spec = 0

/-- The serving machines that the sizes of the sets leave alone. -/
def lasting (w : World) : Int := (w.sets.map fun f => min f.set.spec (serving (w.fleet f.set.name) : Int)).sum

/-! ### Machines -/

theorem serving_keep {f : Fleet.M → Option Fleet.M} {p : Fleet.M → Bool} : ∀ {l : List Fleet.M}, (∀ m ∈ l, p m = true → ∃ m', f m = some m' ∧ serves m' = true) →
    l.countP p ≤ (l.filterMap f).countP serves
  | [], _ => by simp
  | a :: l, h => by
    have ih := serving_keep (l := l) fun m hm => h m (by simp [hm])
    rw [List.countP_cons, List.filterMap_cons]
    cases hp : p a with
    | true =>
      obtain ⟨b, hb, hs⟩ := h a (by simp) hp
      rw [hb]
      dsimp only
      rw [List.countP_cons, hs]; simp; omega
    | false =>
      cases hf : f a with
      | none => simpa using ih
      | some b => dsimp only; rw [List.countP_cons]; simp; omega

theorem serving_after {s : Fleet.Fleet} {f : Fleet.M → Option Fleet.M} {p : Fleet.M → Bool} (new : List Fleet.M)
    (h : ∀ m ∈ s.ms, p m = true → ∃ m', f m = some m' ∧ serves m' = true) : s.ms.countP p ≤ serving (s.after f new) := by
  unfold serving Fleet.Fleet.after
  dsimp only
  rw [List.countP_append]
  have := serving_keep h
  omega

theorem serves_iff {m : Fleet.M} : serves m = true ↔ m.isDying = false ∧ (Fleet.view m).phase = .running := by
  cases m with
  | live vms v x => simp [serves, Fleet.M.isDying, Fleet.view]
  | dying _ _ _ _ _ => simp [serves, Fleet.M.isDying]

theorem ordinary_prio {m : Fleet.M} (h : Ordinary m) (hd : m.isDying = false) : MachineSet.specPriority (Fleet.view m) = 3 := by
  cases m with
  | dying _ _ _ _ _ => cases hd
  | live vms v x =>
    rw [MachineSet.specPriority_eq]
    have hk : (machinePriorityKey == triggerDeletionKey) = false := by decide +kernel
    unfold MachineSet.priorityOf Fleet.view Fleet.annotations SMap.get
    dsimp only
    rcases h with h | h <;> rw [h] <;> cases x.trig <;> simp [hk] <;> decide +kernel

/-- a run of the machine set controller removes serving machines only beyond the size of the set -/
theorem set_serving {srt : List Machine → List Machine} (hs : ∀ l, MachineSet.IsSortOf MachineSet.less (srt l) l) {ms : MachineSet.MSet} {s : Fleet.Fleet}
    (h : Fleet.Settled s) (ho : ∀ m ∈ s.ms, Ordinary m) (now : Int) (new : List Fleet.M) :
    min (Fleet.goal ms) (serving s) ≤ serving (s.after (Fleet.setRun srt now ms s.ms) new) := by
  cases hdel : ms.deleting with
  | true => rw [show Fleet.goal ms = 0 by unfold Fleet.goal; rw [if_pos hdel]]; omega
  | false =>
  rw [Fleet.goal_of hdel]
  have hkeep : s.ms.countP (fun m => serves m && !decide (m.name ∈ Fleet.targets (Fleet.plan srt ms s.ms))) ≤
      serving (s.after (Fleet.setRun srt now ms s.ms) new) := by
    refine serving_after new fun m _ hp => ?_
    simp only [Bool.and_eq_true, Bool.not_eq_true', decide_eq_false_iff_not] at hp
    refine ⟨m, ?_, hp.1⟩
    unfold Fleet.setRun
    rw [if_neg hp.2]
  -- a serving machine is a target only if it is a victim
  have htar : ∀ m ∈ s.ms, serves m = true → m.name ∈ Fleet.targets (Fleet.plan srt ms s.ms) → Fleet.view m ∈ (Fleet.plan srt ms s.ms).victims := by
    intro m hm hsv ht
    unfold Fleet.targets at ht
    obtain ⟨x, hx, hxn⟩ := List.mem_map.1 ht
    have hback : ∀ x ∈ s.ms.map Fleet.view, x.name = m.name → x = Fleet.view m := by
      intro x hx hn
      obtain ⟨m', hm', rfl⟩ := List.mem_map.1 hx
      rw [Fleet.view_name] at hn
      rw [Fleet.unique h.start.names hm' hm hn]
    rcases List.mem_append.1 hx with hx | hx
    · exfalso
      rw [Fleet.plan_of hdel] at hx
      rw [MachineSet.staleTerminated_eq] at hx
      obtain ⟨h1, h2⟩ := List.mem_filter.1 hx
      rw [hback x h1 hxn, h.fresh m hm (serves_iff.1 hsv).1] at h2
      cases h2
    · obtain ⟨K, hK⟩ := MachineSet.victims_perm srt Fleet.allCreated (s.ms.map Fleet.view) ms (fun l => (hs l).perm)
      rw [Fleet.plan_of hdel] at hx
      have h1 := (List.mem_filter.1 (hK.subset (List.mem_append.2 (.inl hx)))).1
      rw [← hback x h1 hxn, Fleet.plan_of hdel]; exact hx
  -- nothing that serves is removed
  have hnone : (∀ m ∈ s.ms, serves m = true → Fleet.view m ∉ (Fleet.plan srt ms s.ms).victims) → serving s ≤ serving (s.after (Fleet.setRun srt now ms s.ms) new) := by
    intro hno
    refine Nat.le_trans ?_ hkeep
    refine List.countP_mono_left fun m hm hsv => ?_
    simp only [hsv, Bool.true_and, Bool.not_eq_true', decide_eq_false_iff_not]
    exact fun ht => hno m hm hsv (htar m hm hsv ht)
  by_cases hv : ∀ m ∈ s.ms, serves m = true → Fleet.view m ∉ (Fleet.plan srt ms s.ms).victims
  · have := hnone hv; omega
  · -- a serving machine is removed: all others serve
    have hex : ∃ m ∈ s.ms, serves m = true ∧ Fleet.view m ∈ (Fleet.plan srt ms s.ms).victims := by
      refine Classical.byContradiction fun hc => hv fun m hm hsv hmv => hc ⟨m, hm, hsv, hmv⟩
    obtain ⟨m0, hm0, hs0, hmv⟩ := hex
    have hvic : ms.replicas < ((s.ms.map Fleet.view).filter MachineSet.isLive).length ∧ (Fleet.plan srt ms s.ms).victims =
        MachineSet.getMachinesToDelete srt ((s.ms.map Fleet.view).filter MachineSet.isLive)
          (min (((s.ms.map Fleet.view).filter MachineSet.isLive).length - ms.replicas) MachineSet.burstReplicas) := by
      rw [Fleet.plan_of hdel] at hmv ⊢
      rcases MachineSet.manageReplicas_cases srt Fleet.allCreated (s.ms.map Fleet.view) ms with ⟨_, _, h⟩ | ⟨_, _, h⟩ | ⟨h1, h⟩ | ⟨_, h⟩ <;> rw [h] at hmv ⊢
      · cases hmv
      · cases hmv
      · exact ⟨h1, rfl⟩
      · cases hmv
    obtain ⟨hlt, hvic⟩ := hvic
    obtain ⟨K, hlen, hperm, hpref⟩ := MachineSet.C03_victims_are_least_valuable srt hs ((s.ms.map Fleet.view).filter MachineSet.isLive)
      (min (((s.ms.map Fleet.view).filter MachineSet.isLive).length - ms.replicas) MachineSet.burstReplicas) (by omega)
    rw [← hvic] at hlen hperm hpref
    have hlive : ∀ x ∈ K, ∃ m ∈ s.ms, Fleet.view m = x ∧ MachineSet.isLive x = true := by
      intro x hx
      obtain ⟨h1, h2⟩ := List.mem_filter.1 (hperm.subset (List.mem_append.2 (.inr hx)))
      obtain ⟨m, hm, he⟩ := List.mem_map.1 h1
      exact ⟨m, hm, he, h2⟩
    have hnd : ∀ m ∈ s.ms, MachineSet.isLive (Fleet.view m) = true → m.isDying = false := by
      intro m hm hl
      cases hd : m.isDying with
      | false => rfl
      | true => rw [Fleet.dying_not_live (h.marked m hm hd)] at hl; cases hl
    have hrun : ∀ x ∈ K, x.phase = .running := by
      intro x hx
      obtain ⟨m, hm, rfl, hl⟩ := hlive x hx
      have h1 := hpref _ hmv _ hx
      unfold MachineSet.Preferable at h1
      rw [ordinary_prio (ho m hm) (hnd m hm hl), ordinary_prio (ho m0 hm0) (serves_iff.1 hs0).1, (serves_iff.1 hs0).2] at h1
      have h2 : ¬ MachineSet.specPhasePos (Fleet.view m).phase < MachineSet.specPhasePos .running := fun hc => h1 (.inr (.inl ⟨rfl, hc⟩))
      revert h2
      cases (Fleet.view m).phase <;> decide
    have hnames : (((s.ms.map Fleet.view).filter MachineSet.isLive).map Machine.name).Nodup := by
      refine List.Nodup.sublist (List.filter_sublist.map _) ?_
      rw [List.map_map]
      have : s.ms.map (Machine.name ∘ Fleet.view) = s.ms.map Fleet.M.name := List.map_congr_left fun m _ => Fleet.view_name m
      rw [this]; exact h.start.names
    have hnv := MachineSet.kept_not_victim hperm hnames
    let Q : Machine → Bool := fun x => x.phase == .running && !decide (x.name ∈ (Fleet.plan srt ms s.ms).victims.map Machine.name)
    have hK : K.countP Q = K.length := by
      rw [List.countP_eq_length]
      intro x hx
      have h1 := hnv x hx
      simp only [Q, hrun x hx, decide_eq_false h1]; rfl
    have hcount : K.length ≤ ((s.ms.map Fleet.view).filter MachineSet.isLive).countP Q := by
      rw [← hperm.countP_eq, List.countP_append, hK]; omega
    have hle : ((s.ms.map Fleet.view).filter MachineSet.isLive).countP Q ≤
        s.ms.countP (fun m => serves m && !decide (m.name ∈ Fleet.targets (Fleet.plan srt ms s.ms))) := by
      rw [List.countP_filter, List.countP_map]
      refine List.countP_mono_left fun m hm hq => ?_
      simp only [Function.comp, Q, Bool.and_eq_true, beq_iff_eq, Bool.not_eq_true', decide_eq_false_iff_not] at hq
      have hsv : serves m = true := serves_iff.2 ⟨hnd m hm hq.2, hq.1.1⟩
      simp only [hsv, Bool.true_and, Bool.not_eq_true', decide_eq_false_iff_not]
      intro ht
      exact hq.1.2 (List.mem_map.2 ⟨_, htar m hm hsv ht, rfl⟩)
    have := hperm.length_eq
    rw [List.length_append, hlen] at this
    omega

/-- healthy machines go on serving -/
theorem step_serving {ms : MachineSet.MSet} {s s' : Fleet.Fleet} {l : Fleet.Lab} (hl : l ≠ .set) (h : Fleet.Start s) (hst : Fleet.Step ms s l s') : serving s ≤ serving s' := by
  have term : ∀ (e : Termination.Env) (n : String), serving s ≤ serving (s.after (Fleet.termRun n e) []) := by
    intro e n
    refine serving_after (p := serves) [] fun m _ hp => ?_
    cases m with
    | dying _ _ _ _ _ => cases hp
    | live vms v x => exact ⟨_, rfl, hp⟩
  cases hst with
  | set => exact absurd rfl hl
  | machine e vm vms v x hm hg _ =>
    refine serving_after (p := serves) [] fun m hmem hp => ?_
    cases m with
    | dying _ _ _ _ _ => cases hp
    | live vms' v' x' =>
      unfold Fleet.machineRun
      dsimp only
      split
      · rename_i heq
        cases Fleet.unique h.names hmem hm heq
        refine ⟨_, rfl, ?_⟩
        obtain ⟨h1, h2, h3, h4, h5, h6, k, _, h7⟩ := h.ok _ hm
        have hrun : v.st.phase = .running := by simpa [serves] using hp
        obtain ⟨_, _, _, _, _, _, hon, _⟩ := Lifecycle.live_left hg h2 h3 (k := k) h7
        simp only [serves, beq_iff_eq]
        rcases hon with h | ⟨_, h⟩ | h
        · rw [h]; exact hrun
        · rw [hrun] at h; cases h
        · exact h
      · exact ⟨_, rfl, hp⟩
  | late e vms t p c tr _ _ _ => exact term e t.name
  | early e vms t p c tr _ _ => exact term e t.name

/-- what a step that is not a run of the machine set controller does to the machines -/
theorem step_ordinary {ms : MachineSet.MSet} {s s' : Fleet.Fleet} {l : Fleet.Lab} (hl : l ≠ .set) (h : Fleet.Start s) (ho : ∀ m ∈ s.ms, Ordinary m)
    (hst : Fleet.Step ms s l s') : ∀ m ∈ s'.ms, Ordinary m := by
  intro m' hm'
  have term : ∀ (e : Termination.Env) (vms : List Creation.VM) (t : Termination.Obj) (p : Option String) (c : Int) (tr : Bool), .dying vms t p c tr ∈ s.ms →
      m' ∈ (s.after (Fleet.termRun t.name e) []).ms → Ordinary m' := by
    intro e vms t p c tr hm hm'
    rcases Fleet.after_mem hm' with ⟨m, hmem, hk⟩ | hk
    · rcases Fleet.term_mem h hm hmem hk with ⟨_, rfl⟩ | ⟨_, rfl⟩
      · trivial
      · exact ho _ hmem
    · cases hk
  cases hst with
  | set => exact absurd rfl hl
  | machine e vm vms v x hm hg hnl =>
    rcases Fleet.after_mem hm' with ⟨m, hmem, hk⟩ | hk
    · rcases Fleet.machine_mem h hm hmem hk with ⟨rfl, rfl⟩ | ⟨_, rfl⟩
      · obtain ⟨h1, h2, h3, h4, h5, h6, k, _, h7⟩ := h.ok _ hm
        obtain ⟨_, _, _, _, _, _, _, hp⟩ := Lifecycle.live_left hg h2 h3 (k := k) h7
        rcases hp with hp | hp
        · have := ho _ hm
          unfold Ordinary at this ⊢
          dsimp only at this ⊢
          rw [hp]; exact this
        · exact .inr hp
      · exact ho _ hmem
    · cases hk
  | late e vms t p c tr hm _ _ => exact term e vms t p c tr hm hm'
  | early e vms t p c tr hm _ => exact term e vms t p c tr hm hm'

theorem set_ordinary {srt : List Machine → List Machine} {now : Int} {ms : MachineSet.MSet} {s : Fleet.Fleet} {new : List Fleet.M} (ho : ∀ m ∈ s.ms, Ordinary m)
    (hn : ∀ m ∈ new, Ordinary m) : ∀ m ∈ (s.after (Fleet.setRun srt now ms s.ms) new).ms, Ordinary m := by
  intro m' hm'
  rcases Fleet.after_mem hm' with ⟨m, hmem, hk⟩ | hk
  · unfold Fleet.setRun at hk
    split at hk
    · cases m with
      | dying _ _ _ _ _ => cases hk; trivial
      | live vms v x =>
        unfold Fleet.kill at hk
        dsimp only at hk
        split at hk
        · cases hk; trivial
        · cases hk
    · cases hk; exact ho _ hmem
  · exact hn _ hk

/-! ### Sizes -/

/-- available machines that the sizes leave alone -/
def kept (l : List FSet) : Int := (l.map fun f => min f.set.avail f.set.spec).sum
def reported (l : List FSet) : Int := (l.map fun f => f.set.avail).sum

theorem sum_split (g : FSet → Int) {n : FSet} : ∀ {l : List FSet}, Unique l → n ∈ l → (l.map g).sum = ((others l n.set.name).map g).sum + g n
  | [], _, h => by cases h
  | a :: l, hu, h => by
    have hu' : a.set.name ∉ l.map (·.set.name) ∧ Unique l := List.nodup_cons.1 hu
    unfold others
    rw [List.filter_cons]
    rcases List.mem_cons.1 h with rfl | h'
    · rw [if_neg (by simp), List.map_cons, List.sum_cons, List.filter_eq_self.2, Int.add_comm]
      intro f hf
      have : f.set.name ≠ n.set.name := fun he => hu'.1 (by rw [← he]; exact List.mem_map.2 ⟨f, hf, rfl⟩)
      simpa using this
    · have hne : a.set.name ≠ n.set.name := fun he => hu'.1 (by rw [he]; exact List.mem_map.2 ⟨n, h', rfl⟩)
      have ih := sum_split g hu'.2 h'
      rw [if_pos (by simpa using hne), List.map_cons, List.sum_cons, List.map_cons, List.sum_cons, ih]
      unfold others
      omega

theorem rolled_kept {d : FDep} (hd : Rolls d) (hb : 0 ≤ maxUnavailable d.spec) {e : Rolling.Env} (he : e.Sorts) {l : List FSet} (hs : Sound d l) {n : FSet}
    (hn : cur d l = some n) (hv : ∀ f ∈ l, f.set.avail ≤ f.set.spec) : min (minAvailable d.spec) (reported l) ≤ kept (rolled d e l n) := by
  have hnm := cur_mem hn
  have hval : ∀ s ∈ msOf n :: (others l n.set.name).map msOf, 0 ≤ s.avail ∧ s.avail ≤ s.spec := by
    intro s hs'
    rcases List.mem_cons.1 hs' with rfl | hs'
    · exact ⟨(hs.nonneg n hnm).2, hv n hnm⟩
    · obtain ⟨f, hf, rfl⟩ := List.mem_map.1 hs'
      exact ⟨(hs.nonneg f (mem_others.1 hf).1).2, hv f (mem_others.1 hf).1⟩
  have hfloor := C11_floor_partial d.spec hd.strategy e he ((others l n.set.name).map msOf) (msOf n) hval hb
  have hnn : ∀ s ∈ (others l n.set.name).map msOf, 0 ≤ s.avail ∧ 0 ≤ s.spec := fun s h => by
    have := hval s (List.mem_cons_of_mem _ h); omega
  -- the sum before
  have hbefore : guaranteed ((others l n.set.name).map msOf ++ [msOf n]) = reported l := by
    unfold guaranteed reported
    rw [sum_split (fun f => f.set.avail) hs.unique hnm, List.map_append, List.sum_append, List.map_map]
    have h1 : (others l n.set.name).map ((fun s => min s.avail s.spec) ∘ msOf) = (others l n.set.name).map fun f => f.set.avail :=
      List.map_congr_left fun f hf => Int.min_eq_left (hv f (mem_others.1 hf).1)
    have h2 : min (msOf n).avail (msOf n).spec = n.set.avail := Int.min_eq_left (hv n hnm)
    rw [h1, List.map_cons, List.map_nil, List.sum_cons, List.sum_nil, h2]
    omega
  dsimp only at hfloor
  rw [hbefore] at hfloor
  refine Int.le_trans hfloor ?_
  -- what comes out
  have hout : ((rolloutStep d.spec e ((others l n.set.name).map msOf) (msOf n)).1.map (·.name)).Perm (((others l n.set.name).map msOf).map (·.name))
      ∧ (rolloutStep d.spec e ((others l n.set.name).map msOf) (msOf n)).2.name = n.set.name
      ∧ (rolloutStep d.spec e ((others l n.set.name).map msOf) (msOf n)).2.avail = n.set.avail
      ∧ (∀ s ∈ (rolloutStep d.spec e ((others l n.set.name).map msOf) (msOf n)).1, ∃ y ∈ (others l n.set.name).map msOf, s.name = y.name ∧ s.avail = y.avail) := by
    rcases rolloutStep_sets d.spec hd.strategy e he ((others l n.set.name).map msOf) (msOf n) hnn with h | ⟨m, h, _, _⟩ | ⟨old', h, h1⟩
    · rw [h]; exact ⟨.refl _, rfl, rfl, fun s hs => ⟨s, hs, rfl, rfl⟩⟩
    · rw [h]; exact ⟨.refl _, rfl, rfl, fun s hs => ⟨s, hs, rfl, rfl⟩⟩
    · rw [h]
      refine ⟨h1.names, rfl, rfl, fun s hs => ?_⟩
      obtain ⟨y, hy, hsh⟩ := h1.shrunk s hs
      exact ⟨y, hy, hsh.1, hsh.2.2.2⟩
  unfold rolled
  revert hout
  generalize rolloutStep d.spec e ((others l n.set.name).map msOf) (msOf n) = r
  intro ⟨p1, p2, p3, p4⟩
  rw [resizeMS_map]
  have hsame : ∀ f ∈ l, (resized d.spec (r.1 ++ [r.2]) f).set.avail = f.set.avail := fun f _ => (resized_sized d _ f).avail
  have hnames := others_names l hs.unique n.set.name
  have hno : ∀ s ∈ r.1, s.name ≠ n.set.name := by
    intro s hs' he'
    have h1 : s.name ∈ (((others l n.set.name).map msOf)).map (·.name) := p1.mem_iff.1 (List.mem_map.2 ⟨s, hs', rfl⟩)
    obtain ⟨x, hx, hxn⟩ := List.mem_map.1 h1
    obtain ⟨f, hf, rfl⟩ := List.mem_map.1 hx
    exact (mem_others.1 hf).2 (by rw [← he', ← hxn]; rfl)
  have hnd : ((r.1 ++ [r.2]).map (·.name)).Nodup := by
    rw [List.map_append, List.nodup_append]
    refine ⟨p1.symm.nodup hnames, by simp, ?_⟩
    intro a ha b hb'
    obtain ⟨s, hs', rfl⟩ := List.mem_map.1 ha
    simp only [List.map_cons, List.map_nil, List.mem_singleton] at hb'
    rw [hb', p2]; exact hno s hs'
  -- the new set
  have hnew : min n.set.avail (resized d.spec (r.1 ++ [r.2]) n).set.spec = min r.2.avail r.2.spec := by
    rw [resized_spec (find_unique_name hnd (by simp) p2), p3]
  -- the old ones
  have hold : ((others l n.set.name).map fun f => min f.set.avail (resized d.spec (r.1 ++ [r.2]) f).set.spec).sum = (r.1.map fun s => min s.avail s.spec).sum := by
    have h1 := sum_lookup ((others l n.set.name).map fun f => { msOf f with spec := min f.set.avail (resized d.spec (r.1 ++ [r.2]) f).set.spec })
      (r.1.map fun s => { s with spec := min s.avail s.spec }) (·.spec) (by rw [List.map_map, List.map_map]; rw [List.map_map] at p1; exact p1)
      (by rw [List.map_map]; rw [List.map_map] at hnames; exact hnames) ?_
    · rw [List.map_map, List.map_map] at h1; exact h1
    · intro a ha b hb' hab
      obtain ⟨f, hf, rfl⟩ := List.mem_map.1 ha
      obtain ⟨s, hs', rfl⟩ := List.mem_map.1 hb'
      dsimp only at hab ⊢
      rw [resized_spec (s := s) (find_unique_name hnd (by simp [hs']) hab)]
      obtain ⟨y, hy, hyn, hya⟩ := p4 s hs'
      obtain ⟨g, hg, rfl⟩ := List.mem_map.1 hy
      have hgf : g = f := unique_eq l hs.unique g f (mem_others.1 hg).1 (mem_others.1 hf).1 (by rw [show g.set.name = (msOf g).name from rfl, ← hyn, hab]; rfl)
      subst hgf
      rw [hya]; rfl
  have hsum : kept (l.map (resized d.spec (r.1 ++ [r.2]))) = (l.map fun f => min f.set.avail (resized d.spec (r.1 ++ [r.2]) f).set.spec).sum := by
    unfold kept
    rw [List.map_map]
    congr 1
    exact List.map_congr_left fun f hf => by simp only [Function.comp]; rw [hsame f hf]
  rw [hsum, sum_split (fun f => min f.set.avail (resized d.spec (r.1 ++ [r.2]) f).set.spec) hs.unique hnm, hold, hnew]
  unfold guaranteed
  rw [List.map_append, List.sum_append]
  simp

/-- the sets of `out` report what those of `l` report; sets that are new report nothing -/
def SameReports (l out : List FSet) : Prop := ∀ f ∈ out, f.set.avail = 0 ∨ ∃ g ∈ l, g.set.name = f.set.name ∧ g.set.avail = f.set.avail

theorem same_forall2 {l l' out : List FSet} (h : List.Forall₂ (fun a b => b.set.name = a.set.name ∧ b.set.avail = a.set.avail) l' out) (hs : SameReports l l') : SameReports l out := by
  intro f hf
  obtain ⟨a, ha, h1, h2⟩ := mem_forall2 h f hf
  rcases hs a ha with h | ⟨g, hg, e1, e2⟩
  · exact .inl (h2.trans h)
  · exact .inr ⟨g, hg, e1.trans h1.symm, e2.trans h2.symm⟩

theorem same_refl (l : List FSet) : SameReports l l := fun f hf => .inr ⟨f, hf, rfl, rfl⟩

theorem kept_forall2 {l out : List FSet} (h : List.Forall₂ (fun a b => b.set.spec = a.set.spec ∧ b.set.avail = a.set.avail) l out) : kept out = kept l := by
  unfold kept
  rw [map_forall2 (g := fun f => min f.set.avail f.set.spec) (fun a b hr => by rw [hr.1, hr.2]) h]

theorem kept_caught {l : List FSet} (hv : ∀ f ∈ l, f.set.avail ≤ f.set.spec) : kept l = reported l := by
  unfold kept reported
  rw [List.map_congr_left fun f hf => Int.min_eq_left (hv f hf)]

/-- a whole run of the deployment controller -/
theorem reconcile_kept {d : FDep} (hd : Rolls d) (hb : 0 ≤ maxUnavailable d.spec) {e : Dispatch.Env} {l : List FSet} (he : e.Fine l) (hs : Sound d l)
    (hv : ∀ f ∈ l, f.set.avail ≤ f.set.spec) : (∀ f ∈ l, f.set.spec = 0) ∨
    SameReports l (reconcile d e l).sets ∧ min (minAvailable d.spec) (reported l) ≤ kept (reconcile d e l).sets := by
  have self : SameReports l l ∧ min (minAvailable d.spec) (reported l) ≤ kept l := ⟨same_refl l, by rw [kept_caught hv]; omega⟩
  have alike : ∀ {l' out : List FSet}, List.Forall₂ Alike l' out → SameReports l l' ∧ min (minAvailable d.spec) (reported l) ≤ kept l' →
      SameReports l out ∧ min (minAvailable d.spec) (reported l) ≤ kept out := by
    intro l' out h1 ⟨h2, h3⟩
    exact ⟨same_forall2 (h1.imp fun _ _ hr => ⟨hr.name, hr.avail⟩) h2, by rw [kept_forall2 (h1.imp fun _ _ hr => ⟨hr.spec, hr.avail⟩)]; exact h3⟩
  have sized : ∀ (x : List FSet) (r : List MS), SameReports l x → SameReports l (resizeMS d.spec x r) := fun x r hx =>
    same_forall2 ((resizeMS_sized d x r).imp fun _ _ hr => ⟨hr.name, hr.avail⟩) hx
  rcases reconcile_rolls hd.toPlain e l with h | h
  · rw [h]; exact .inr self
  rw [h]
  rcases scaleOrRoll_cases hd (e := e) hs with ⟨n, hn, hw, h⟩ | ⟨n, hn, hw, ⟨_, h⟩ | ⟨hz, hr, h⟩ | h⟩ | ⟨hn, h⟩
  · rw [h]
    right
    split
    · have hf := written_forall2 (d := d) hs.unique (cur_mem hn)
      refine ⟨same_forall2 (hf.imp fun _ _ hr => ⟨by rw [hr.1], by rw [hr.1]⟩) (same_refl l), ?_⟩
      rw [kept_forall2 (hf.imp fun _ _ hr => ⟨by rw [hr.1], by rw [hr.1]⟩)]; exact self.2
    · exact self
  · rw [h]; exact .inr self
  · exact .inl hz
  · rw [h]
    right
    rcases rolling_cur (e := e) hs.unique hn hw with ⟨h1, _⟩ | ⟨h1, _⟩
    · exact alike h1 self
    · exact alike h1 ⟨sized l _ (same_refl l), rolled_kept hd hb he.sorts hs hn hv⟩
  · rw [h]
    right
    rcases rolling_none hd he hn with ⟨h1, _⟩ | ⟨size, hz, h1⟩
    · rw [h1]; exact self
    · obtain ⟨k1, _, k3, _⟩ := created_less hd he hs hn hz
      have hsame : SameReports l (l ++ [newSet d e l size]) := by
        intro f hf
        rcases List.mem_append.1 hf with hf | hf
        · exact .inr ⟨f, hf, rfl, rfl⟩
        · rw [List.mem_singleton.1 hf]; exact .inl rfl
      have hv' : ∀ f ∈ l ++ [newSet d e l size], f.set.avail ≤ f.set.spec := by
        intro f hf
        rcases List.mem_append.1 hf with hf | hf
        · exact hv f hf
        · rw [List.mem_singleton.1 hf]; exact k3
      have hrep : reported (l ++ [newSet d e l size]) = reported l := by
        unfold reported
        rw [List.map_append, List.sum_append]
        show _ + ((0 : Int) + 0) = _
        omega
      have hfl : min (minAvailable d.spec) (reported l) ≤ kept (l ++ [newSet d e l size]) := by rw [kept_caught hv', hrep]; omega
      rcases h1 with h1 | h1
      · rw [h1]; exact ⟨hsame, hfl⟩
      · refine alike h1 ⟨sized _ _ hsame, ?_⟩
        rw [← hrep]
        exact rolled_kept hd hb he.sorts k1 (created_cur hd.toPlain hn size) hv'

theorem sum_le {α : Type} {f g : α → Int} : ∀ {l : List α}, (∀ a ∈ l, f a ≤ g a) → (l.map f).sum ≤ (l.map g).sum
  | [], _ => by simp
  | a :: l, h => by
    have h1 := h a (by simp)
    have h2 := sum_le (l := l) fun x hx => h x (by simp [hx])
    simp only [List.map_cons, List.sum_cons]
    omega

/-! ### Sets that are being deleted stay empty -/

theorem rolled_others {d : FDep} (hd : Rolls d) {e : Rolling.Env} (he : e.Sorts) {l : List FSet} (hs : Sound d l) (n : FSet) :
    ∀ f ∈ rolled d e l n, f.set.name = n.set.name ∨ ∃ g ∈ l, g.set.name = f.set.name ∧ f.set.spec ≤ g.set.spec := by
  have hnn : ∀ s ∈ (others l n.set.name).map msOf, 0 ≤ s.avail ∧ 0 ≤ s.spec := by
    intro s hs'
    obtain ⟨f, hf, rfl⟩ := List.mem_map.1 hs'
    have := hs.nonneg f (mem_others.1 hf).1
    exact ⟨this.2, this.1⟩
  have key : ∀ s ∈ (rolloutStep d.spec e ((others l n.set.name).map msOf) (msOf n)).1 ++ [(rolloutStep d.spec e ((others l n.set.name).map msOf) (msOf n)).2],
      s.name = n.set.name ∨ ∃ g ∈ l, g.set.name = s.name ∧ s.spec ≤ g.set.spec := by
    intro s hs'
    have hold : s ∈ (others l n.set.name).map msOf → ∃ g ∈ l, g.set.name = s.name ∧ s.spec ≤ g.set.spec := by
      intro h
      obtain ⟨f, hf, rfl⟩ := List.mem_map.1 h
      exact ⟨f, (mem_others.1 hf).1, rfl, Int.le_refl _⟩
    rcases rolloutStep_sets d.spec hd.strategy e he ((others l n.set.name).map msOf) (msOf n) hnn with h | ⟨m, h, h1, h2⟩ | ⟨old', h, h1⟩ <;> rw [h] at hs' <;>
      rcases List.mem_append.1 hs' with hs' | hs'
    · exact .inr (hold hs')
    · rw [List.mem_singleton.1 hs']; exact .inl rfl
    · exact .inr (hold hs')
    · rw [List.mem_singleton.1 hs']; exact .inl rfl
    · obtain ⟨y, hy, hy'⟩ := h1.shrunk s hs'
      obtain ⟨f, hf, rfl⟩ := List.mem_map.1 hy
      exact .inr ⟨f, (mem_others.1 hf).1, hy'.1.symm, hy'.2.2.1⟩
    · rw [List.mem_singleton.1 hs']; exact .inl rfl
  intro f hf
  unfold rolled at hf
  rw [resizeMS_map] at hf
  obtain ⟨a, ha, rfl⟩ := List.mem_map.1 hf
  rw [(resized_sized d _ a).name]
  unfold resized
  split
  · rename_i s hfs
    have hn : s.name = a.set.name := by simpa using List.find?_some hfs
    rw [(withSize_sized d a s.spec).2, ← hn]
    exact key s (List.mem_of_find?_eq_some hfs)
  · exact .inr ⟨a, ha, rfl, Int.le_refl _⟩

/-- only the set of the current template gets larger -/
theorem reconcile_others {d : FDep} (hd : Rolls d) {e : Dispatch.Env} {l : List FSet} (he : e.Fine l) (hs : Sound d l) :
    ∀ f ∈ (reconcile d e l).sets, (some f.set.name = (cur d l).map (·.set.name)) ∨ (∃ g ∈ l, g.set.name = f.set.name ∧ f.set.spec ≤ g.set.spec) ∨
      (cur d l = none ∧ f.set.name = e.fresh) := by
  have self : ∀ f ∈ l, ∃ g ∈ l, g.set.name = f.set.name ∧ f.set.spec ≤ g.set.spec := fun f hf => ⟨f, hf, rfl, Int.le_refl _⟩
  rcases reconcile_rolls hd.toPlain e l with h | h
  · rw [h]; exact fun f hf => .inr (.inl (self f hf))
  rw [h]
  rcases scaleOrRoll_cases hd (e := e) hs with ⟨n, hn, hw, h⟩ | ⟨n, hn, hw, ⟨_, h⟩ | ⟨hz, hr, h⟩ | h⟩ | ⟨hn, h⟩
  · rw [h]
    split
    · intro f hf
      obtain ⟨a, ha, hra⟩ := mem_forall2 (written_forall2 (d := d) hs.unique (cur_mem hn)) f hf
      rw [hra.1]; exact .inr (.inl (self a ha))
    · exact fun f hf => .inr (.inl (self f hf))
  · rw [h]; exact fun f hf => .inr (.inl (self f hf))
  · rw [h, hn]
    intro f hf
    rcases ((sync_noMore hd he hs hn hw hz hr).2.2 f hf).2 with h1 | h1
    · exact .inr (.inl (self f h1))
    · exact .inl (by rw [h1]; rfl)
  · rw [h, hn]
    intro f hf
    rcases rolling_cur (e := e) hs.unique hn hw with ⟨h1, _⟩ | ⟨h1, _⟩ <;> obtain ⟨a, ha, hra⟩ := mem_forall2 h1 f hf <;> rw [hra.name, hra.spec]
    · exact .inr (.inl (self a ha))
    · rcases rolled_others hd he.sorts hs n a ha with h2 | h2
      · exact .inl (by rw [h2]; rfl)
      · exact .inr (.inl h2)
  · rw [h]
    intro f hf
    rcases rolling_none hd he hn with ⟨h1, _⟩ | ⟨size, hz, h1⟩
    · rw [h1] at hf; exact .inr (.inl (self f hf))
    · obtain ⟨c1, _⟩ := created_less hd he hs hn hz
      have happ : ∀ g ∈ l ++ [newSet d e l size], g ∈ l ∨ g.set.name = e.fresh := by
        intro g hg
        rcases List.mem_append.1 hg with hg | hg
        · exact .inl hg
        · rw [List.mem_singleton.1 hg]; exact .inr rfl
      rcases h1 with h1 | h1
      · rw [h1] at hf
        rcases happ f hf with h2 | h2
        · exact .inr (.inl (self f h2))
        · exact .inr (.inr ⟨hn, h2⟩)
      · obtain ⟨a, ha, hra⟩ := mem_forall2 h1 f hf
        rw [hra.name, hra.spec]
        rcases rolled_others hd he.sorts c1 _ a ha with h2 | ⟨g, hg, h2, h3⟩
        · exact .inr (.inr ⟨hn, h2⟩)
        · rcases happ g hg with h4 | h4
          · exact .inr (.inl ⟨g, h4, h2, h3⟩)
          · exact .inr (.inr ⟨hn, by rw [← h2, h4]⟩)

/-- sets that are being deleted are to be empty -/
def Retired (l : List FSet) : Prop := ∀ f ∈ l, f.deleting = true → f.set.spec = 0

theorem reconcile_retired {d : FDep} (hd : Rolls d) {e : Dispatch.Env} {l : List FSet} (he : e.Fine l) (hs : Sound d l) (hf : Fresh d l) (h : Retired l) :
    Retired (reconcile d e l).sets := by
  intro f hfm hdel
  have h0 := ((reconcile_noMore hd he hs).1.1.nonneg f hfm).1
  have hle : ∀ g ∈ l, g.set.name = f.set.name → f.set.spec ≤ g.set.spec → g.deleting = true ∨ g.set.spec = 0 → f.set.spec = 0 := by
    intro g hg _ h1 h2
    have : g.set.spec = 0 := h2.elim (h g hg) id
    omega
  have hev := reconcile_evolves hd.toPlain hs.unique he.unseen he.fresh he.cleans
  rcases hev with hev | ⟨hn, x, hx, _, hev⟩
  · obtain ⟨a, ha, hr⟩ := mem_forall2 hev f hfm
    have hname : f.set.name = a.set.name := hr.kept.1
    rcases reconcile_others hd he hs f hfm with h1 | ⟨g, hg, h1, h2⟩ | ⟨h1, h2⟩
    · exfalso
      rw [hname] at h1
      rcases hr.fresh hdel with h3 | h3
      · cases hc : cur d l with
        | none => rw [hc] at h1; cases h1
        | some c =>
          rw [hc] at h1
          have : a = c := unique_eq l hs.unique a c ha (cur_mem hc) (Option.some.inj h1)
          subst this
          rw [hf a hc] at h3; cases h3
      · exact h3.2 h1.symm
    · have : g = a := unique_eq l hs.unique g a hg ha (h1.trans hname)
      subst this
      exact hle g hg h1 h2 ((hr.fresh hdel).imp id (·.1))
    · exact absurd (hname.symm.trans h2) (he.fresh a ha)
  · obtain ⟨a, ha, hr⟩ := mem_forall2 hev f hfm
    have hname : f.set.name = a.set.name := hr.kept.1
    rcases List.mem_append.1 ha with ha | ha
    · rcases reconcile_others hd he hs f hfm with h1 | ⟨g, hg, h1, h2⟩ | ⟨h1, h2⟩
      · rw [hn] at h1; cases h1
      · have : g = a := unique_eq l hs.unique g a hg ha (h1.trans hname)
        subst this
        exact hle g hg h1 h2 ((hr.fresh hdel).imp id (·.1))
      · exact absurd (hname.symm.trans h2) (he.fresh a ha)
    · rw [List.mem_singleton.1 ha] at hr
      rcases hr.fresh hdel with h1 | h1
      · rw [hx] at h1; cases h1
      · exact absurd rfl h1.2

theorem still_retired {l l' : List FSet} (h : List.Forall₂ Still l l') (hl : Retired l) : Retired l' := by
  intro f hf hdel
  obtain ⟨a, ha, hr⟩ := mem_forall2 h f hf
  rw [hr.spec]; exact hl a ha (by rw [← hr.mark]; exact hdel)

theorem step_retired {d : FDep} (hd : Rolls d) {w w' : World} {l : Lab} (hw : Ready d w) (h : Retired w.sets) (hst : Step d w l w') : Retired w'.sets := by
  cases hst with
  | machines f l s' hf hst => exact h
  | status f hf => exact still_retired (report_still w _) h
  | poor e seen h1 h2 =>
    exact still_retired (restore_still _ _) (reconcile_retired hd h2 (sees_sound h1 hw.sound) (still_fresh (sees_still h1) hw.current) (still_retired (sees_still h1) h))
  | good e h1 _ _ _ _ => exact still_retired (restore_still _ _) (reconcile_retired hd h1 hw.sound hw.current h)
  | gone f hf _ _ => exact fun g hg => h g (mem_others.1 hg).1

theorem lasting_agree {l l' : List FSet} (h : List.Forall₂ Agree l l') (F : String → Fleet.Fleet) : lasting ⟨l', F⟩ = lasting ⟨l, F⟩ := by
  unfold lasting
  rw [map_forall2 (g := fun f => min f.set.spec (serving (F f.set.name) : Int)) (fun a b hr => by rw [hr.name, hr.spec]) h]

theorem lasting_serving (w : World) : lasting w ≤ servingAll w := sum_le fun _ _ => Int.min_le_right _ _

theorem Turn.step {P : World → List FSet → Prop} {d : FDep} {w w' : World} (h : Turn P d w w') : ∃ l, Step d w l w' := by
  cases h with
  | set f srt now new hf hs hl hn hnd =>
    exact ⟨_, .machines f .set _ hf (.set srt now new (fun l => (hs l).perm) hl (fun m hm => (hn m hm).1) hnd)⟩
  | machine f l s' hf _ hst => exact ⟨_, .machines f l s' hf hst⟩
  | status f hf => exact ⟨_, .status f hf⟩
  | deploy e seen h1 h2 _ => exact ⟨_, .poor e seen h1 h2⟩
  | gone f hf h1 h2 => exact ⟨_, .gone f hf h1 h2⟩

theorem turn_calm {P : World → List FSet → Prop} {d : FDep} (hd : Rolls d) {w w' : World} (hw : Calm d w) (h : Turn P d w w') : Calm d w' := by
  obtain ⟨l, hst⟩ := h.step
  refine ⟨(step_ready hd hw.ready hst).1, ?_, ?_, step_retired hd hw.ready hw.retired hst⟩
  · cases hst with
    | machines f l s' hf hst =>
      intro n
      unfold World.change
      dsimp only
      split
      · exact Fleet.step_settled (hw.settled _) hst
      · exact hw.settled n
    | status f hf => exact hw.settled
    | poor e seen h1 h2 => exact hw.settled
    | good e _ _ _ _ _ => exact hw.settled
    | gone f hf _ _ => exact hw.settled
  · clear hst
    cases h with
    | set f srt now new hf hs hl hn hnd =>
      intro n
      unfold World.change
      dsimp only
      split
      · exact set_ordinary (hw.ordinary _) fun m hm => (hn m hm).2
      · exact hw.ordinary n
    | machine f l s' hf hl hst =>
      intro n
      unfold World.change
      dsimp only
      split
      · exact step_ordinary hl (hw.settled _).start (hw.ordinary _) hst
      · exact hw.ordinary n
    | status f hf => exact hw.ordinary
    | deploy e seen _ _ _ => exact hw.ordinary
    | gone f hf _ _ => exact hw.ordinary

/-- a set asks for the machines it is to have -/
theorem goal_retired {f : FSet} (h0 : 0 ≤ f.set.spec) (h : f.deleting = true → f.set.spec = 0) : (Fleet.goal (demand f) : Int) = f.set.spec := by
  unfold Fleet.goal demand
  dsimp only
  split
  · rw [h (by assumption)]; rfl
  · exact Int.toNat_of_nonneg h0

theorem sum_others {l : List FSet} (g : FSet → Int) {n : String} (h : ∀ f ∈ l, f.set.name = n → g f = 0) : ((others l n).map g).sum = (l.map g).sum := by
  induction l with
  | nil => rfl
  | cons a l ih =>
    have ih := ih fun f hf => h f (by simp [hf])
    unfold others at ih ⊢
    rw [List.filter_cons]
    split
    · rw [List.map_cons, List.sum_cons, List.map_cons, List.sum_cons, ih]
    · rename_i hc
      rw [List.map_cons, List.sum_cons, ih, h a (by simp) (by simpa using hc)]
      omega

/-- machines of one set change -/
theorem lasting_change {d : FDep} {w : World} (hw : Ready d w) {f : FSet} (hf : f ∈ w.sets) {s' : Fleet.Fleet}
    (h : min f.set.spec (serving (w.fleet f.set.name) : Int) ≤ serving s') : lasting w ≤ lasting (w.change f.set.name s') := by
  unfold lasting
  refine sum_le fun g hg => ?_
  unfold World.change
  dsimp only
  split
  · rename_i he
    rw [unique_eq w.sets hw.sound.unique g f hg hf he]
    omega
  · exact Int.le_refl _

theorem turn_lasting {x : Int} {d : FDep} (hd : Rolls d) (hb : 0 ≤ maxUnavailable d.spec) (hx : x ≤ minAvailable d.spec) {w w' : World} (hw : Calm d w)
    (h : Turn (Cautious x) d w w') : min x (lasting w) ≤ lasting w' := by
  have hcalm := turn_calm hd hw h
  cases h with
  | set f srt now new hf hs hl hn hnd =>
    have h1 := set_serving (ms := demand f) hs (hw.settled f.set.name) (hw.ordinary _) now new
    have h2 := lasting_change hw.ready hf (s' := (w.fleet f.set.name).after (Fleet.setRun srt now (demand f) (w.fleet f.set.name).ms) new) (by
      have := goal_retired (hw.ready.sound.nonneg f hf).1 (hw.retired f hf)
      omega)
    omega
  | machine f l s' hf hl hst =>
    have h1 := step_serving hl (hw.settled f.set.name).start hst
    have h2 := lasting_change hw.ready hf (s' := s') (by omega)
    omega
  | status f hf =>
    have := lasting_agree (report_agree w f.set.name) w.fleet
    rw [show w.report f.set.name = ⟨(w.report f.set.name).sets, w.fleet⟩ from rfl, this]
    exact Int.min_le_right _ _
  | gone f hf h1 h2 =>
    have : lasting (w.drop f.set.name) = lasting w := by
      refine sum_others (fun f => min f.set.spec (serving (w.fleet f.set.name) : Int)) fun g hg hn => ?_
      have h3 := (hw.ready.sound.nonneg g hg).1
      rw [hn, show serving (w.fleet f.set.name) = 0 by unfold serving; rw [h2]; rfl]
      omega
    omega
  | deploy e seen h1 h2 h3 =>
    obtain ⟨h4, h5⟩ := h3
    have hsn := sees_sound h1 hw.ready.sound
    have heq : lasting w = lasting ⟨seen, w.fleet⟩ := (lasting_agree (sees_agree h1) w.fleet).symm
    have hnn : 0 ≤ lasting (w.deploy d e seen) := by
      unfold lasting
      refine sum_nonneg _ fun y hy => ?_
      obtain ⟨f, hf, rfl⟩ := List.mem_map.1 hy
      have := (hcalm.ready.sound.nonneg f hf).1
      omega
    rcases reconcile_kept hd hb h2 hsn (fun f hf => (h4 f hf).1) with hz | ⟨hsame, hk⟩
    · have : lasting w ≤ 0 := by
        rw [heq]
        unfold lasting
        have := sum_le (l := seen) (f := fun f => min f.set.spec (serving (w.fleet f.set.name) : Int)) (g := fun _ => 0) fun _ hf => by rw [hz _ hf]; omega
        rw [show (seen.map fun _ => (0 : Int)).sum = 0 by induction seen <;> simp_all] at this
        exact this
      omega
    · have hout : kept (reconcile d e seen).sets ≤ lasting (w.deploy d e seen) := by
        have h6 := lasting_agree (restore_agree w.sets (reconcile d e seen).sets) w.fleet
        rw [show w.deploy d e seen = ⟨restore w.sets (reconcile d e seen).sets, w.fleet⟩ from rfl, h6]
        unfold kept lasting
        refine sum_le fun f hf => ?_
        dsimp only
        rcases hsame f hf with h | ⟨g, hg, hgn, hga⟩
        · rw [h]; omega
        · have := (h4 g hg).2
          rw [hgn, hga] at this
          omega
      rcases h5 with h5 | h5
      · have : x ≤ reported seen := h5
        omega
      · have : lasting w = reported seen := by
          rw [heq]
          unfold lasting reported
          congr 1
          refine List.map_congr_left fun f hf => ?_
          have h6 := (h4 f hf).1
          rw [h5 f hf] at h6 ⊢
          exact Int.min_eq_right h6
        omega

/-- C113: In every execution of all controllers – any number of old sets, of machines, of runs in any order, with calls of the deployment controller failing at any point – a
rolling update leaves at least `replicas - maxUnavailable` machines serving, or as many as served before it if those were fewer, provided that the machines stay healthy and
that no run of the deployment controller sees a status that is ahead of things (`Cautious`). -/
theorem C113_floor_partial (d : FDep) (hd : Rolls d) (bs bu : Budget) (hbs : bs.Parses) (hbu : bu.Parses) (h1 : d.spec.maxSurge = some bs.manifest)
    (h2 : d.spec.maxUnavailable = some bu.manifest) (s u : Int) (hs : bs.UpTo d.spec.replicas s) (hu : bu.DownTo d.spec.replicas u) (hsu : s ≠ 0 ∨ u ≠ 0)
    (w w' : World) (hw : Calm d w) (h : Turns (Cautious (d.spec.replicas - u)) d w w') :
    min (d.spec.replicas - u) (lasting w) ≤ servingAll w' := by
  obtain ⟨k1, k2, k3, k4, k5⟩ := C09_floor d.spec bs bu hbs hbu hd.strategy h1 h2 hd.size.1
  obtain ⟨s', u', u0, f1, f2, f3, f4, f5, f6, f7, f8⟩ := C09_fenceposts bs bu hbs hbu d.spec.replicas hd.size.1
  have hs' : s' = s := by
    cases bs with
    | abs n => simp only [Budget.UpTo] at hs f2; omega
    | percent p => simp only [Budget.UpTo, IsCeilPercent] at hs f2; omega
  have hu' : u0 = u := by
    cases bu with
    | abs n => simp only [Budget.DownTo] at hu f3; omega
    | percent p => simp only [Budget.DownTo, IsFloorPercent] at hu f3; omega
  have := (k5 s' u' f1).2
  have := f8 (by omega)
  have hx : d.spec.replicas - u ≤ minAvailable d.spec := by omega
  have key : Calm d w' ∧ min (d.spec.replicas - u) (lasting w) ≤ lasting w' := by
    clear f1 f2 f3 f4 f5 f6 f7 f8
    induction h with
    | refl => exact ⟨hw, Int.min_le_right _ _⟩
    | tail _ hst ih =>
      have := turn_lasting hd k1 hx ih.1 hst
      exact ⟨turn_calm hd ih.1 hst, by omega⟩
  have := lasting_serving w'
  omega

/-- C113, in the usual case: no set has more machines serving than it is to have, and the floor is reached; then the floor holds for good. -/
theorem C113_stays_up_partial (d : FDep) (hd : Rolls d) (bs bu : Budget) (hbs : bs.Parses) (hbu : bu.Parses) (h1 : d.spec.maxSurge = some bs.manifest)
    (h2 : d.spec.maxUnavailable = some bu.manifest) (s u : Int) (hs : bs.UpTo d.spec.replicas s) (hu : bu.DownTo d.spec.replicas u) (hsu : s ≠ 0 ∨ u ≠ 0)
    (w w' : World) (hw : Calm d w) (hq : ∀ f ∈ w.sets, (serving (w.fleet f.set.name) : Int) ≤ f.set.spec) (h0 : d.spec.replicas - u ≤ servingAll w)
    (h : Turns (Cautious (d.spec.replicas - u)) d w w') : d.spec.replicas - u ≤ servingAll w' := by
  have hl : lasting w = servingAll w := by
    unfold lasting servingAll
    congr 1
    exact List.map_congr_left fun f hf => Int.min_eq_right (hq f hf)
  have := C113_floor_partial d hd bs bu hbs hbu h1 h2 s u hs hu hsu w w' hw h
  omega

/-- C113: a status that is written now is exact, so that runs which see nothing older, while no set has machines to remove, are cautious. -/
theorem C113_report_exact (d : FDep) (w : World) (hw : Calm d w) (n : String) (hp : ∀ m ∈ (w.fleet n).ms, (Fleet.view m).phase ≠ .available) :
    ∀ f ∈ (w.report n).sets, f.set.name = n → f.set.avail = serving (w.fleet n) := by
  intro f hf hn
  unfold World.report at hf
  obtain ⟨g, hg, rfl⟩ := List.mem_map.1 hf
  split at hn
  case isFalse h => rw [if_neg h] at *; exact absurd hn h
  case isTrue h =>
    rw [if_pos h]
    unfold observed statusOf Status.calcSet serving
    dsimp only
    rw [← List.countP_eq_length_filter, List.countP_map]
    congr 1
    refine List.countP_congr fun m hm => ?_
    have h1 := hp m hm
    cases m with
    | live vms v x =>
      simp only [Function.comp, Status.isAvailable, counted, serves, Fleet.view] at h1 ⊢
      simp [h1]
    | dying vms t p c tr =>
      have h2 := (hw.settled n).marked _ hm rfl
      simp only [Function.comp, Status.isAvailable, counted, serves]
      rw [h2]
      simp

/-! ### Where the floor gives way -/

/-- everything that is seen is true -/
def Truthful (w : World) (seen : List FSet) : Prop := ∀ f ∈ seen, f.set.avail = serving (w.fleet f.set.name)
/-- nothing that is seen is better than the truth, and no set has machines to remove -/
def Modest (w : World) (seen : List FSet) : Prop := ∀ f ∈ seen, f.set.avail ≤ f.set.spec ∧ f.set.avail ≤ serving (w.fleet f.set.name)

/-- a machine with its VM -/
def mk (p : Phase) (n : String) : Fleet.M :=
  .live [⟨"node", "prov:///vm"⟩] { name := n, finalizer := true, node := some "node", pid := "prov:///vm", prio := some "3", st := { phase := p } } {}

theorem mk_ok {p : Phase} {n : String} (hn : NameLike n) (h1 : p ≠ .empty) (h2 : p ≠ .terminating) : Fleet.Ok (mk p n) := by
  refine ⟨hn, rfl, by simp, h2, by simp, ?_, ?_⟩
  · intro y hy; rw [List.mem_singleton.1 hy]; unfold NameLike; decide
  · have hrec : Lifecycle.Recorded [⟨"node", "prov:///vm"⟩] { name := n, finalizer := true, node := some "node", pid := "prov:///vm", prio := some "3", st := { phase := p } } :=
      ⟨_, rfl, rfl, rfl, rfl, by decide, by decide, by simp⟩
    by_cases h : p = .running
    · exact ⟨0, by omega, .running hrec h⟩
    · exact ⟨1, by omega, .waiting hrec h1 h⟩

/-- five machines, of which two may be missing and one may be too many -/
def lostDep : FDep := { spec := { replicas := 5, maxSurge := some (.int 1), maxUnavailable := some (.int 2) }, template := { body := "v3" } }

/-- a set of the template `body` -/
def lostSet (name body : String) (spec avail status : Int) : FSet :=
  { set := { name := name, spec := spec, avail := avail, desired := some "5" }, tmpl := { labels := [("machine-template-hash", name)], body := body }, status := status }

/-- two sets of old templates and one of the current one, with their machines -/
def lostStart (sa sb sn : Int × Int) (a b n : List Fleet.M) : World :=
  { sets := [lostSet "a" "v1" sa.1 sa.2 a.length, lostSet "b" "v2" sb.1 sb.2 b.length, lostSet "n" "v3" sn.1 sn.2 n.length]
    fleet := fun x => if x = "a" then { ms := a } else if x = "b" then { ms := b } else if x = "n" then { ms := n } else { ms := [] } }

theorem lost_rolls : Rolls lostDep := ⟨⟨rfl, rfl, rfl, by decide, by decide, by unfold IsMap; decide⟩, rfl⟩

theorem lost_calm {sa sb sn : Int × Int} {a b n : List Fleet.M} (h : ∀ l ∈ [a, b, n], (∀ m ∈ l, ∃ p x, m = mk p x ∧ NameLike x ∧ (p = .running ∨ p = .pending)) ∧ (l.map Fleet.M.name).Nodup)
    (h0 : 0 ≤ sa.1 ∧ 0 ≤ sa.2 ∧ 0 ≤ sb.1 ∧ 0 ≤ sb.2 ∧ 0 ≤ sn.1 ∧ 0 ≤ sn.2) : Calm lostDep (lostStart sa sb sn a b n) := by
  have hfl : ∀ x, (lostStart sa sb sn a b n).fleet x = { ms := [] } ∨ ∃ l ∈ [a, b, n], (lostStart sa sb sn a b n).fleet x = { ms := l } := by
    intro x
    unfold lostStart
    dsimp only
    split
    · exact .inr ⟨a, by simp, rfl⟩
    · split
      · exact .inr ⟨b, by simp, rfl⟩
      · split
        · exact .inr ⟨n, by simp, rfl⟩
        · exact .inl rfl
  have hset : ∀ l ∈ [a, b, n], Fleet.Settled { ms := l } ∧ ∀ m ∈ l, Ordinary m := by
    intro l hl
    obtain ⟨h1, h2⟩ := h l hl
    refine ⟨⟨⟨fun m hm => ?_, h2, rfl⟩, fun m hm _ => ?_, fun m hm hd => ?_⟩, fun m hm => ?_⟩ <;> obtain ⟨p, x, rfl, hx, hp⟩ := h1 m hm
    · exact mk_ok hx (by rcases hp with rfl | rfl <;> simp) (by rcases hp with rfl | rfl <;> simp)
    · unfold mk
      rw [Fleet.stale_live]
      rcases hp with rfl | rfl <;> rfl
    · cases hd
    · exact .inr rfl
  have hempty : Fleet.Settled { ms := [] } := ⟨⟨by simp, by simp, rfl⟩, fun m hm => by simp at hm, fun m hm => by simp at hm⟩
  have hdes : ∀ f ∈ (lostStart sa sb sn a b n).sets, f.set.desired = some "5" := by
    intro f hf
    simp only [lostStart, lostSet, List.mem_cons, List.not_mem_nil, or_false] at hf
    rcases hf with rfl | rfl | rfl <;> rfl
  have hdel : ∀ f ∈ (lostStart sa sb sn a b n).sets, f.deleting = false := by
    intro f hf
    simp only [lostStart, lostSet, List.mem_cons, List.not_mem_nil, or_false] at hf
    rcases hf with rfl | rfl | rfl <;> rfl
  refine ⟨⟨⟨by unfold Dispatch.Unique lostStart lostSet; simp, ?_, ?_⟩, ?_, ?_, ?_, fun c hc => hdel c (cur_mem hc)⟩, ?_, ?_, fun f hf hx => by rw [hdel f hf] at hx; cases hx⟩
  · intro f hf
    simp only [lostStart, lostSet, List.mem_cons, List.not_mem_nil, or_false] at hf
    rcases hf with rfl | rfl | rfl <;> simp only <;> omega
  · intro _ f hf _ v hv
    rw [hdes f hf] at hv
    have h5 : (some "5").bind atoi = some 5 := by decide +kernel
    rw [h5] at hv
    cases hv; rfl
  · intro x
    rcases hfl x with h | ⟨l, hl, h⟩ <;> rw [h]
    · exact hempty.start
    · exact (hset l hl).1.start
  · intro x hx
    have h1 := hx _ (show lostSet "a" "v1" sa.1 sa.2 a.length ∈ (lostStart sa sb sn a b n).sets by simp [lostStart])
    have h2 := hx _ (show lostSet "b" "v2" sb.1 sb.2 b.length ∈ (lostStart sa sb sn a b n).sets by simp [lostStart])
    have h3 := hx _ (show lostSet "n" "v3" sn.1 sn.2 n.length ∈ (lostStart sa sb sn a b n).sets by simp [lostStart])
    unfold lostStart
    dsimp only
    rw [if_neg fun h => h1 h.symm, if_neg fun h => h2 h.symm, if_neg fun h => h3 h.symm]
  · intro f hf he
    simp only [lostStart, lostSet, List.mem_cons, List.not_mem_nil, or_false] at hf
    rcases hf with rfl | rfl | rfl
    · exact absurd (show equalIgnoreHash { labels := [("machine-template-hash", "a")], body := "v1" } lostDep.template = true from he) (by decide)
    · exact absurd (show equalIgnoreHash { labels := [("machine-template-hash", "b")], body := "v2" } lostDep.template = true from he) (by decide)
    · refine ⟨fun k hk => ?_, rfl⟩
      simp only [lostDep, List.lookup]
      rw [show (k == "machine-template-hash") = false from by simpa using hk]
  · intro x
    rcases hfl x with h | ⟨l, hl, h⟩ <;> rw [h]
    · exact hempty
    · exact (hset l hl).1
  · intro x
    rcases hfl x with h | ⟨l, hl, h⟩ <;> rw [h]
    · intro m hm; simp at hm
    · exact (hset l hl).2

theorem lost_mk {l : List Fleet.M} (ps : List (Phase × String)) (h : l = ps.map fun x => mk x.1 x.2)
    (h1 : ∀ x ∈ ps, NameLike x.2 ∧ (x.1 = .running ∨ x.1 = .pending)) (h2 : (ps.map Prod.snd).Nodup) :
    (∀ m ∈ l, ∃ p x, m = mk p x ∧ NameLike x ∧ (p = .running ∨ p = .pending)) ∧ (l.map Fleet.M.name).Nodup := by
  subst h
  refine ⟨fun m hm => ?_, ?_⟩
  · obtain ⟨x, hx, rfl⟩ := List.mem_map.1 hm
    exact ⟨x.1, x.2, rfl, h1 x hx⟩
  · rw [List.map_map]
    exact h2

/-- how the machine sets sort their machines -/
def lostSort : List Machine → List Machine := fun l => l.mergeSort fun a b => !MachineSet.less b a

/-- the set `n`, which is to have no machine, removes them -/
def gone (w : World) (n : String) : World := w.change n ((w.fleet n).after (Fleet.setRun lostSort 0 { replicas := 0 } (w.fleet n).ms) [])
/-- the machine `x` of the set `n` is reconciled, and its node is ready -/
def joins (w : World) (n x : String) : World := w.change n ((w.fleet n).after (Fleet.machineRun x Fleet.goodEnv ⟨"node", "prov:///vm"⟩) [])

theorem gone_turn {P : World → List FSet → Prop} {d : FDep} {w : World} (hw : Calm d w) (n : String) (h : ∃ f ∈ w.sets, f.set.name = n ∧ f.set.spec = 0 ∧ f.deleting = false)
    (hi : (Fleet.plan lostSort { replicas := 0 } (w.fleet n).ms).issued = 0) : Turn P d w (gone w n) := by
  obtain ⟨f, hf, rfl, h0, h1⟩ := h
  have hdem : demand f = { replicas := 0 } := by unfold demand; rw [h0, h1]; rfl
  have := Turn.set (P := P) (d := d) f lostSort 0 [] hf (fun l => MachineSet.C03_sort_exists l) (by rw [hdem, hi]; rfl) (by simp)
    (by rw [List.append_nil]; exact (hw.settled f.set.name).start.names)
  rw [hdem] at this
  exact this

theorem joins_turn {P : World → List FSet → Prop} {d : FDep} {w : World} (n x : String) (h : ∃ f ∈ w.sets, f.set.name = n)
    (hm : mk .pending x ∈ (w.fleet n).ms) : Turn P d w (joins w n x) := by
  obtain ⟨f, hf, rfl⟩ := h
  exact .machine f _ _ hf (by simp) (.machine Fleet.goodEnv ⟨"node", "prov:///vm"⟩ _ _ _ hm (Fleet.goodEnv_good _) (by unfold NameLike; decide))

/-- the deployment controller as it runs here: `b` says whether the update of the set `b` succeeds, `r` in which order it takes sets of the same age -/
def lostEnv (b r : Bool) : Dispatch.Env :=
  { fresh := "x", hash := "9", rolling := { okClean := fun s => s.name != "b" || b, srt1 := if r then List.reverse else id, srt2 := if r then List.reverse else id } }

theorem lost_fine (b r : Bool) {l : List FSet} (h : ∀ f ∈ l, f.set.name ≠ "x") : (lostEnv b r).Fine l := by
  have hp : ∀ l : List Rolling.MS, ((if r then List.reverse else id) l).Perm l := by
    intro l
    cases r
    · exact List.Perm.refl l
    · exact List.reverse_perm l
  exact ⟨⟨hp, hp⟩, ⟨fun l => List.Perm.refl l, fun l => List.Perm.refl l⟩, h, (fun f h => by cases h), (show ("9" : String) ≠ "" by decide),
    fun l => List.Perm.refl l⟩

theorem deploy_turn {P : World → List FSet → Prop} {d : FDep} {w : World} (hw : Calm d w) (b r : Bool) (h : ∀ f ∈ w.sets, f.set.name ≠ "x") (hp : P w w.sets) :
    Turn P d w (w.deploy d (lostEnv b r) w.sets) := .deploy _ _ (sees_refl hw.ready.sound) (lost_fine b r h) hp

/-! The first execution: two sets of old templates with machines that have not come up, and one running machine of each of the three templates. The revision is recorded; then the
clean-up takes two machines from `a` and fails at `b`. Before the set `a` acts on it its machines join after all. Now the clean-up begins with `b`, has removed
as much as it may before it gets to `a`, and takes the three machines of `a` for available although the set is to keep one of them only. -/

def late0 : World := lostStart (3, 1) (2, 1) (1, 1) [mk .running "a1", mk .pending "a2", mk .pending "a3"] [mk .running "b1", mk .pending "b2"] [mk .running "n1"]
def late1 : World := late0.deploy lostDep (lostEnv true false) late0.sets
def late2 : World := late1.deploy lostDep (lostEnv false false) late1.sets
def late3 : World := joins late2 "a" "a2"
def late4 : World := joins late3 "a" "a3"
def late5 : World := late4.report "a"
def late6 : World := late5.deploy lostDep (lostEnv true true) late5.sets
def late7 : World := gone late6 "b"
def late8 : World := gone late7 "a"

/-- **C113** (the truth is not enough): every run of the deployment controller sees all sets as they are and no status is outdated, and at the beginning no set has
machines to remove; yet of the three machines that have to serve only one is left. -/
theorem C113_truth_is_not_enough_false :
    ∃ w', Calm lostDep late0 ∧ (∀ f ∈ late0.sets, (serving (late0.fleet f.set.name) : Int) ≤ f.set.spec) ∧ servingAll late0 = 3 ∧ Turns Truthful lostDep late0 w' ∧ servingAll w' = 1 := by
  have c0 : Calm lostDep late0 := by
    refine lost_calm (fun l hl => ?_) (by decide)
    simp only [List.mem_cons, List.not_mem_nil, or_false] at hl
    rcases hl with rfl | rfl | rfl
    · exact lost_mk [(.running, "a1"), (.pending, "a2"), (.pending, "a3")] rfl (by unfold NameLike; decide) (by decide)
    · exact lost_mk [(.running, "b1"), (.pending, "b2")] rfl (by unfold NameLike; decide) (by decide)
    · exact lost_mk [(.running, "n1")] rfl (by unfold NameLike; decide) (by decide)
  have t1 : Turn Truthful lostDep late0 late1 := deploy_turn c0 _ _ (by decide +kernel) (by unfold Truthful; decide +kernel)
  have c1 := turn_calm lost_rolls c0 t1
  have t2 : Turn Truthful lostDep late1 late2 := deploy_turn c1 _ _ (by decide +kernel) (by unfold Truthful; decide +kernel)
  have c2 := turn_calm lost_rolls c1 t2
  have t3 : Turn Truthful lostDep late2 late3 := joins_turn "a" "a2" (by decide +kernel) (by
    rw [show (late2.fleet "a").ms = [mk .running "a1", mk .pending "a2", mk .pending "a3"] from rfl]; simp)
  have c3 := turn_calm lost_rolls c2 t3
  have t4 : Turn Truthful lostDep late3 late4 := joins_turn "a" "a3" (by decide +kernel) (List.mem_of_getElem? (i := 2) rfl)
  have c4 := turn_calm lost_rolls c3 t4
  have t5 : Turn Truthful lostDep late4 late5 := by
    obtain ⟨f, hf, hn⟩ : ∃ f ∈ late4.sets, f.set.name = "a" := by decide +kernel
    have := Turn.status (P := Truthful) (d := lostDep) f hf
    rw [hn] at this; exact this
  have c5 := turn_calm lost_rolls c4 t5
  have t6 : Turn Truthful lostDep late5 late6 := deploy_turn c5 _ _ (by decide +kernel) (by unfold Truthful; decide +kernel)
  have c6 := turn_calm lost_rolls c5 t6
  have t7 : Turn Truthful lostDep late6 late7 := gone_turn c6 "b" (by decide +kernel) (by decide +kernel)
  have c7 := turn_calm lost_rolls c6 t7
  have t8 : Turn Truthful lostDep late7 late8 := gone_turn c7 "a" (by decide +kernel) (by decide +kernel)
  exact ⟨late8, c0, by decide +kernel, by decide +kernel, ((((((((Turns.refl late0).tail t1).tail t2).tail t3).tail t4).tail t5).tail t6).tail t7).tail t8, by decide +kernel⟩

/-! The second execution: the status of the set `a` has not caught up with its three running machines, and the clean-up takes them for machines that have not come up. -/

def low0 : World := lostStart (3, 0) (3, 1) (1, 1) [mk .running "a1", mk .running "a2", mk .running "a3"] [mk .running "b1", mk .pending "b2", mk .pending "b3"] [mk .running "n1"]
def low1 : World := low0.deploy lostDep (lostEnv true false) low0.sets
def low2 : World := low1.deploy lostDep (lostEnv true false) low1.sets
def low3 : World := gone low2 "a"

/-- **C113** (a status that is too low is not harmless): no run of the deployment controller sees more serving machines than there are, and five machines serve in the beginning; but
the three machines whose status has not arrived are removed as unhealthy, and two are left where three have to serve. -/
theorem C113_underreported_false :
    ∃ w', Calm lostDep low0 ∧ (∀ f ∈ low0.sets, (serving (low0.fleet f.set.name) : Int) ≤ f.set.spec) ∧ servingAll low0 = 5 ∧ Turns Modest lostDep low0 w' ∧ servingAll w' = 2 := by
  have c0 : Calm lostDep low0 := by
    refine lost_calm (fun l hl => ?_) (by decide)
    simp only [List.mem_cons, List.not_mem_nil, or_false] at hl
    rcases hl with rfl | rfl | rfl
    · exact lost_mk [(.running, "a1"), (.running, "a2"), (.running, "a3")] rfl (by unfold NameLike; decide) (by decide)
    · exact lost_mk [(.running, "b1"), (.pending, "b2"), (.pending, "b3")] rfl (by unfold NameLike; decide) (by decide)
    · exact lost_mk [(.running, "n1")] rfl (by unfold NameLike; decide) (by decide)
  have t1 : Turn Modest lostDep low0 low1 := deploy_turn c0 _ _ (by decide +kernel) (by unfold Modest; decide +kernel)
  have c1 := turn_calm lost_rolls c0 t1
  have t2 : Turn Modest lostDep low1 low2 := deploy_turn c1 _ _ (by decide +kernel) (by unfold Modest; decide +kernel)
  have c2 := turn_calm lost_rolls c1 t2
  have t3 : Turn Modest lostDep low2 low3 := gone_turn c2 "a" (by decide +kernel) (by decide +kernel)
  exact ⟨low3, c0, by decide +kernel, by decide +kernel, (((Turns.refl low0).tail t1).tail t2).tail t3, by decide +kernel⟩

/-! A rolling update within the floor: two running machines of each of two old templates and one of the current one, whose second machine has not come up. -/

def fits0 : World := lostStart (2, 2) (2, 2) (2, 1) [mk .running "a1", mk .running "a2"] [mk .running "b1", mk .running "b2"] [mk .running "n1", mk .pending "n2"]
def fits1 : World := fits0.deploy lostDep (lostEnv true false) fits0.sets
def fits2 : World := fits1.deploy lostDep (lostEnv true false) fits1.sets
def fits3 : World := gone fits2 "a"

/-- the update removes the two machines of the first set, and three machines serve, as `C113_stays_up_partial` says -/
example : ∃ w', Calm lostDep fits0 ∧ (∀ f ∈ fits0.sets, (serving (fits0.fleet f.set.name) : Int) ≤ f.set.spec) ∧ servingAll fits0 = 5 ∧ Turns (Cautious 3) lostDep fits0 w' ∧
    servingAll w' = 3 ∧ lostDep.spec.replicas - 2 ≤ servingAll w' := by
  have c0 : Calm lostDep fits0 := by
    refine lost_calm (fun l hl => ?_) (by decide)
    simp only [List.mem_cons, List.not_mem_nil, or_false] at hl
    rcases hl with rfl | rfl | rfl
    · exact lost_mk [(.running, "a1"), (.running, "a2")] rfl (by unfold NameLike; decide) (by decide)
    · exact lost_mk [(.running, "b1"), (.running, "b2")] rfl (by unfold NameLike; decide) (by decide)
    · exact lost_mk [(.running, "n1"), (.pending, "n2")] rfl (by unfold NameLike; decide) (by decide)
  have t1 : Turn (Cautious 3) lostDep fits0 fits1 := deploy_turn c0 _ _ (by decide +kernel) (by unfold Cautious; decide +kernel)
  have c1 := turn_calm lost_rolls c0 t1
  have t2 : Turn (Cautious 3) lostDep fits1 fits2 := deploy_turn c1 _ _ (by decide +kernel) (by unfold Cautious; decide +kernel)
  have c2 := turn_calm lost_rolls c1 t2
  have t3 : Turn (Cautious 3) lostDep fits2 fits3 := gone_turn c2 "a" (by decide +kernel) (by decide +kernel)
  have ts : Turns (Cautious 3) lostDep fits0 fits3 := (((Turns.refl fits0).tail t1).tail t2).tail t3
  have hq : ∀ f ∈ fits0.sets, (serving (fits0.fleet f.set.name) : Int) ≤ f.set.spec := by decide +kernel
  exact ⟨fits3, c0, hq, by decide +kernel, ts, by decide +kernel,
    C113_stays_up_partial lostDep lost_rolls (.abs 1) (.abs 2) trivial trivial rfl rfl 1 2 rfl rfl (.inl (by decide)) fits0 fits3 c0 hq (by decide +kernel) ts⟩

end MCM.World
