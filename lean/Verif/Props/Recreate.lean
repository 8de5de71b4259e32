import Verif.Model.Recreate
import Verif.Props.Scale
/-!
# C14 – the Recreate strategy never mixes old and new machines
-/
namespace MCM.Recreate
open MCM MCM.Rolling MCM.Scale

/-! ## Independent specification -/

/-- no old machine set wants machines and no machine of an old set exists -/
def OldGone (old : List MSet) (machines : String → Nat) : Prop := ∀ s ∈ old, s.spec = 0 ∧ machines s.name = 0

/-- the set of the current template wants machines -/
def NewWanted (new : Option MSet) : Prop := ∃ n, new = some n ∧ 0 < n.spec

/-- The world: the deployment's `replicas`, whether it is paused, the machine sets and the machines that exist. -/
structure World where
  replicas : Int
  paused : Bool
  old : List MSet
  new : Option MSet
  machines : String → Nat

/-- one step of the world -/
inductive Step : World → World → Prop
  /-- machines of sets are created and vanish; a set that wants none gets none -/
  | machines (w : World) (m' : String → Nat) (h : ∀ s ∈ w.old, s.spec ≤ 0 → m' s.name ≤ w.machines s.name) :
      Step w { w with machines := m' }
  /-- the user scales, pauses or resumes the deployment -/
  | user (w : World) (r : Int) (p : Bool) (h : 0 ≤ r) : Step w { w with replicas := r, paused := p }
  /-- the user changes the template to one no machine set carries -/
  | template (w : World) : Step w { w with old := w.old ++ w.new.toList, new := none }
  /-- the deployment controller runs; it sees the current machine sets and machines, any reported status, and its API
  calls have any outcome. A set it creates has a fresh name. -/
  | controller (w : World) (d : Dep) (o : Out) (status : String → Int) (hd : d.strategy = .recreate) (hr : d.replicas = w.replicas)
      (hs : o.scaleEnv.Sorts) (hc : ∀ n, o.created = some n → n.name ∉ w.old.map (·.name) ∧ 0 ≤ n.spec) :
      Step w { w with
        old := (reconcile d w.paused o ⟨w.old, w.new, status, w.machines⟩).1
        new := (reconcile d w.paused o ⟨w.old, w.new, status, w.machines⟩).2 }

inductive Steps : World → World → Prop
  | refl (a) : Steps a a
  | tail {a b c} : Steps a b → Step b c → Steps a c

/-- starting point: the set of the current template does not exist yet or the old ones are gone -/
def Separated (w : World) : Prop := w.new = none ∨ OldGone w.old w.machines

/-- names are unique and sizes non-negative, as the API server guarantees -/
def WellFormed (w : World) : Prop :=
  0 ≤ w.replicas ∧ ((w.old ++ w.new.toList).map (·.name)).Nodup ∧ ∀ s ∈ w.old ++ w.new.toList, 0 ≤ s.spec

/-! ## Lemmas -/

theorem zeroAll_spec (d : Dep) (ok : MSet → Bool) (l : List MSet) :
    (zeroAll d ok l).1.map (·.name) = l.map (·.name) ∧ (∀ s' ∈ (zeroAll d ok l).1, s'.spec = 0 ∨ s' ∈ l) := by
  induction l with
  | nil => simp [zeroAll]
  | cons s rest ih =>
    have h1 : (scaleSetEv d (ok s) s 0).1.name = s.name ∧ ((scaleSetEv d (ok s) s 0).1.spec = 0 ∨ (scaleSetEv d (ok s) s 0).1 = s) := by
      unfold scaleSetEv; split
      · exact ⟨rfl, Or.inr rfl⟩
      · exact ⟨scaleSet_name _ _ _ _, scaleSet_spec _ _ _ _⟩
    unfold zeroAll
    dsimp only
    split
    · refine ⟨by simp [h1.1], ?_⟩
      intro s' hs'
      rcases List.mem_cons.1 hs' with rfl | hs'
      · rcases h1.2 with h | h
        · exact Or.inl h
        · exact Or.inr (by simp [h])
      · exact Or.inr (by simp [hs'])
    · refine ⟨by simp [h1.1, ih.1], ?_⟩
      intro s' hs'
      rcases List.mem_cons.1 hs' with rfl | hs'
      · rcases h1.2 with h | h
        · exact Or.inl h
        · exact Or.inr (by simp [h])
      · rcases ih.2 s' hs' with h | h
        · exact Or.inl h
        · exact Or.inr (by simp [h])

theorem active_eq_nil (l : List MSet) : (active l).length = 0 ↔ ∀ s ∈ l, s.spec ≤ 0 := by
  rw [List.length_eq_zero_iff]
  unfold active
  rw [List.filter_eq_nil_iff]
  simp

theorem not_running (v : View) (h : oldMachinesRunning v = false) (hn : ((v.old ++ v.new.toList).map (·.name)).Nodup) :
    ∀ s ∈ v.old, v.machines s.name = 0 := by
  unfold oldMachinesRunning at h
  split at h
  · simp at h
  · rw [List.any_eq_false] at h
    intro s hs
    have h1 := h s.name (by simp; exact Or.inl ⟨s, hs, rfl⟩)
    have hne : v.new.map (·.name) ≠ some s.name := by
      cases hv : v.new with
      | none => simp
      | some n =>
        simp only [Option.map_some, ne_eq, Option.some.injEq]
        intro he
        rw [hv] at hn
        simp only [Option.toList, List.map_append, List.map_cons, List.map_nil] at hn
        have := (List.nodup_append.1 hn).2.2 s.name (List.mem_map.2 ⟨s, hs, rfl⟩) n.name (by simp)
        exact this he.symm
    simp only [hne, if_false, decide_eq_true_eq] at h1
    omega

theorem scaleSetEv_name (d ok s n) : (scaleSetEv d ok s n).1.name = s.name := by
  unfold scaleSetEv; split
  · rfl
  · exact scaleSet_name _ _ _ _

theorem scaleSetEv_spec (d ok s n) : (scaleSetEv d ok s n).1.spec = n ∨ (scaleSetEv d ok s n).1 = s := by
  unfold scaleSetEv; split
  · exact Or.inr rfl
  · exact scaleSet_spec _ _ _ _

/-- **C14** for one rollout run: whenever the Recreate rollout leaves the set of the current template wanting more machines
than before (including creating it), no old set wanted machines and none of their machines existed. -/
theorem C14_rollout_waits (d : Dep) (o : Out) (v : View) (hn : ((v.old ++ v.new.toList).map (·.name)).Nodup) (hnn : ∀ s ∈ v.old, 0 ≤ s.spec)
    (h : (rolloutRecreate d o v).2 ≠ v.new) : OldGone v.old v.machines ∧ (rolloutRecreate d o v).1 = v.old := by
  unfold rolloutRecreate at h ⊢
  cases hp : o.preOk
  · simp [hp] at h
  · simp only [hp, Bool.not_true, Bool.false_eq_true, if_false] at h ⊢
    by_cases ha : (active v.old).length > 0
    · simp [ha] at h
    · simp only [ha, if_false] at h ⊢
      have hz := (active_eq_nil v.old).1 (by omega)
      by_cases hr : oldMachinesRunning v = true
      · simp [hr] at h
      · simp only [Bool.not_eq_true] at hr
        simp only [hr, Bool.false_eq_true, if_false] at h ⊢
        refine ⟨fun s hs => ⟨by have := hz s hs; have := hnn s hs; omega, not_running v hr hn s hs⟩, ?_⟩
        split
        · rfl
        · split <;> rfl

theorem find_name (l : List MSet) (n : MSet) (hm : n ∈ l) (hnd : (l.map (·.name)).Nodup) (s : MSet) (hs : s ∈ l) (he : s.name = n.name) : s = n := by
  induction l with
  | nil => simp at hm
  | cons x l ih =>
    simp only [List.map_cons, List.nodup_cons] at hnd
    rcases List.mem_cons.1 hm with h1 | h1 <;> rcases List.mem_cons.1 hs with h2 | h2
    · rw [h1, h2]
    · exact absurd (List.mem_map.2 ⟨s, h2, by rw [he, h1]⟩) hnd.1
    · exact absurd (List.mem_map.2 ⟨n, h1, by rw [← he, h2]⟩) hnd.1
    · exact ih h1 hnd.2 h2

/-- what `scale` does for a Recreate deployment: the names stay; a set keeps its size, or becomes `replicas` (only when it
is the only set wanting machines, or none wants any and it is the new one / newest), or 0 -/
theorem scale_recreate (d : Dep) (hd : d.strategy = .recreate) (env : Scale.Env) (hs : env.Sorts) (old : List MSet) (new : Option MSet)
    (hnd : ((old ++ new.toList).map (·.name)).Nodup) :
    ((scale d env old new).1.map (·.name)).Perm ((old ++ new.toList).map (·.name))
    ∧ (∀ s' ∈ (scale d env old new).1, ∃ s ∈ old ++ new.toList, s.name = s'.name ∧
        (s'.spec = s.spec ∨ s'.spec = 0 ∨ (s'.spec = d.replicas ∧ findActiveOrLatest env old new = some s))) := by
  have hfm : ∀ s, findActiveOrLatest env old new = some s → s ∈ old ++ new.toList := by
    intro s h
    have hp := (hs.1 old).append_right new.toList
    unfold findActiveOrLatest at h
    split at h
    · split at h
      · injection h with h; subst h; simp
      · have : s ∈ env.srtNewest old := by
          revert h; cases env.srtNewest old <;> simp
          intro h; simp [h]
        exact List.mem_append.2 (Or.inl ((hs.1 old).mem_iff.1 this))
    · rename_i s' h1
      injection h with h; rw [← h]
      have : s' ∈ active (env.srtNewest old ++ new.toList) := by rw [h1]; simp
      exact hp.mem_iff.1 (List.mem_filter.1 this).1
    · simp at h
  unfold scale
  cases hf : findActiveOrLatest env old new with
  | some s =>
    have hsm := hfm s hf
    simp only
    generalize hr : (if s.spec = d.replicas then scaleSet d (env.ok s) s d.replicas else scaleSetEv d (env.ok s) s d.replicas) = r
    have h1 : r.1.name = s.name ∧ (r.1.spec = d.replicas ∨ r.1 = s) := by
      rw [← hr]; split
      · exact ⟨scaleSet_name _ _ _ _, scaleSet_spec _ _ _ _⟩
      · exact ⟨scaleSetEv_name _ _ _ _, scaleSetEv_spec _ _ _ _⟩
    have hnames : (replaceSet (old ++ new.toList) r.1).map (·.name) = (old ++ new.toList).map (·.name) := by
      unfold replaceSet
      rw [List.map_map]
      apply List.map_congr_left
      intro x _
      simp only [Function.comp]
      split
      · rename_i h; exact h.symm
      · rfl
    refine ⟨by rw [hnames], ?_⟩
    intro s' hs'
    unfold replaceSet at hs'
    obtain ⟨x, hx, rfl⟩ := List.mem_map.1 hs'
    by_cases hxn : x.name = r.1.name
    · have : x = s := find_name _ s hsm hnd x hx (by rw [hxn, h1.1])
      subst this
      refine ⟨x, hx, by simp [hxn], ?_⟩
      simp only [hxn, if_true]
      rcases h1.2 with h2 | h2
      · exact Or.inr (Or.inr ⟨h2, trivial⟩)
      · rw [h2]; exact Or.inl rfl
    · refine ⟨x, hx, by simp [hxn], ?_⟩
      simp [hxn]
  | none =>
    simp only
    split
    · have hz := zeroAll_spec d env.ok (active old)
      refine ⟨?_, ?_⟩
      · simp only [List.map_append, hz.1]
        apply List.Perm.append_right
        rw [← List.map_append]
        exact (split_perm old (fun s => decide (s.spec > 0))).map _
      · intro s' hs'
        have hmem : (∃ s ∈ old, s.name = s'.name ∧ (s'.spec = s.spec ∨ s'.spec = 0)) ∨ s' ∈ new.toList := by
          rcases List.mem_append.1 hs' with hs' | hs'
          · left
            rcases List.mem_append.1 hs' with hs' | hs'
            · exact ⟨s', (List.mem_filter.1 hs').1, rfl, Or.inl rfl⟩
            · have hn : s'.name ∈ (active old).map (·.name) := by rw [← hz.1]; exact List.mem_map.2 ⟨s', hs', rfl⟩
              rcases hz.2 s' hs' with h | h
              · obtain ⟨s, h1, h2⟩ := List.mem_map.1 hn
                exact ⟨s, (List.mem_filter.1 h1).1, h2, Or.inr h⟩
              · exact ⟨s', (List.mem_filter.1 h).1, rfl, Or.inl rfl⟩
          · exact Or.inr hs'
        rcases hmem with ⟨s, h1, h2, h3⟩ | h
        · refine ⟨s, by simp [h1], h2, ?_⟩
          rcases h3 with h3 | h3
          · exact Or.inl h3
          · exact Or.inr (Or.inl h3)
        · exact ⟨s', List.mem_append.2 (Or.inr h), rfl, Or.inl rfl⟩
    · simp only [hd, reduceCtorEq, if_false]
      exact ⟨List.Perm.refl _, fun s' h => ⟨s', h, rfl, Or.inl rfl⟩⟩

theorem split_names (new : Option MSet) (old l : List MSet) (hnd : ((old ++ new.toList).map (·.name)).Nodup)
    (h : (l.map (·.name)).Perm ((old ++ new.toList).map (·.name))) :
    ((splitNew new l).1.map (·.name)).Perm (old.map (·.name)) ∧ (splitNew new l).2.map (·.name) = new.map (·.name)
    ∧ (∀ s ∈ (splitNew new l).1 ++ (splitNew new l).2.toList, s ∈ l) := by
  cases new with
  | none => simp [splitNew] at h ⊢; exact h
  | some n =>
    have hfl : ∀ l : List MSet, (l.filter fun s => s.name ≠ n.name).map (·.name) = (l.map (·.name)).filter (fun x => x ≠ n.name) := by
      intro l
      rw [List.filter_map]; rfl
    simp only [Option.toList, List.map_append, List.map_cons, List.map_nil] at hnd h
    have hold : n.name ∉ old.map (·.name) := by
      intro hm
      exact (List.nodup_append.1 hnd).2.2 _ hm _ (by simp) rfl
    refine ⟨?_, ?_, ?_⟩
    · simp only [splitNew, hfl]
      refine (h.filter _).trans ?_
      rw [List.filter_append]
      have : (old.map (·.name)).filter (fun x => decide (x ≠ n.name)) = old.map (·.name) := by
        rw [List.filter_eq_self]
        intro x hx
        simp only [ne_eq, decide_not, Bool.not_eq_eq_eq_not, Bool.not_true, decide_eq_false_iff_not]
        rintro rfl; exact hold hx
      rw [this]; simp
    · simp only [splitNew, Option.map_some]
      have : n.name ∈ l.map (·.name) := h.symm.mem_iff.1 (by simp)
      obtain ⟨s, hs, he⟩ := List.mem_map.1 this
      cases hf : l.find? (fun s => decide (s.name = n.name)) with
      | none =>
        have := List.find?_eq_none.1 hf s hs
        simp [he] at this
      | some x =>
        have := List.find?_some hf
        simpa using this
    · intro s hs
      simp only [splitNew] at hs
      rcases List.mem_append.1 hs with hs | hs
      · exact (List.mem_filter.1 hs).1
      · cases hf : l.find? (fun s => decide (s.name = n.name)) with
        | none => rw [hf] at hs; simp at hs
        | some x =>
          rw [hf] at hs
          simp at hs; subst hs
          exact List.mem_of_find?_eq_some hf

theorem split_new_name (n : MSet) (l : List MSet) (s : MSet) (hs : s ∈ (splitNew (some n) l).1) : s.name ≠ n.name := by
  simp only [splitNew] at hs
  simpa using (List.mem_filter.1 hs).2

/-- the invariant -/
theorem step_inv (a b : World) (h : Step a b) (hw : WellFormed a) (hs : Separated a) : WellFormed b ∧ Separated b := by
  cases h with
  | machines m' hm =>
    refine ⟨hw, ?_⟩
    rcases hs with h | h
    · exact Or.inl h
    · right; intro s hsm
      have h1 := h s hsm
      have := hm s hsm (by omega)
      exact ⟨h1.1, by simp only; omega⟩
  | user r p hr => exact ⟨⟨hr, hw.2⟩, hs⟩
  | template => exact ⟨⟨hw.1, by simpa using hw.2.1, by simpa using hw.2.2⟩, Or.inl rfl⟩
  | controller d o status hd hr hsr hc =>
    obtain ⟨w1, w2, w3⟩ := hw
    have hnno : ∀ s ∈ a.old, 0 ≤ s.spec := fun s h => w3 s (by simp [h])
    unfold reconcile
    dsimp only
    by_cases hbr : (a.paused || isScalingEvent d a.old a.new) = true
    · simp only [hbr, if_true]
      by_cases hp : o.preOk = true
      · simp only [hp, Bool.not_true, Bool.false_eq_true, if_false]
        obtain ⟨q1, q2⟩ := scale_recreate d hd o.scaleEnv hsr a.old a.new w2
        obtain ⟨r1, r2, r3⟩ := split_names a.new a.old _ w2 q1
        have hwf : WellFormed { a with
            old := (splitNew a.new (scale d o.scaleEnv a.old a.new).1).1
            new := (splitNew a.new (scale d o.scaleEnv a.old a.new).1).2 } := by
          refine ⟨w1, ?_, ?_⟩
          · have e : (((splitNew a.new (scale d o.scaleEnv a.old a.new).1).1 ++ (splitNew a.new (scale d o.scaleEnv a.old a.new).1).2.toList).map (·.name)).Perm ((a.old ++ a.new.toList).map (·.name)) := by
              rw [List.map_append, List.map_append]
              have e2 : (splitNew a.new (scale d o.scaleEnv a.old a.new).1).2.toList.map (·.name) = a.new.toList.map (·.name) := by
                rw [← Option.toList_map, ← Option.toList_map, r2]
              rw [e2]; exact r1.append_right _
            exact e.nodup_iff.2 w2
          · intro s hsm
            obtain ⟨s0, h1, h2, h3⟩ := q2 s (r3 s hsm)
            have := w3 s0 h1
            rcases h3 with h3 | h3 | h3 <;> simp only at hsm ⊢ <;> omega
        refine ⟨hwf, ?_⟩
        rcases hs with h | h
        · left; rw [h]; rfl
        · by_cases hnone : a.new = none
          · left; rw [hnone]; rfl
          right
          intro s hsm
          simp only at hsm
          have hname : s.name ∈ a.old.map (·.name) := r1.mem_iff.1 (List.mem_map.2 ⟨s, hsm, rfl⟩)
          obtain ⟨s1, h1, h2⟩ := List.mem_map.1 hname
          have hg := h s1 h1
          refine ⟨?_, by rw [← h2]; exact hg.2⟩
          obtain ⟨s0, h3, h4, h5⟩ := q2 s (r3 s (by simp [hsm]))
          have he : s0 = s1 := find_name _ s1 (by simp [h1]) w2 s0 h3 (by rw [h4, h2])
          subst he
          rcases h5 with h5 | h5 | ⟨h5, h6⟩
          · omega
          · exact h5
          · -- the set scaled to `replicas` is never an old one
            exfalso
            cases hn : a.new with
            | none => exact hnone hn
            | some n =>
              have hne : s0 ≠ n := by
                rintro rfl
                rw [hn] at hsm
                exact split_new_name _ _ s hsm h4.symm
              rw [hn] at h6
              unfold findActiveOrLatest at h6
              split at h6
              · injection h6 with h6; exact hne h6.symm
              · rename_i x hx
                injection h6 with h6; subst h6
                have : x ∈ active (o.scaleEnv.srtNewest a.old ++ (some n).toList) := by rw [hx]; simp
                have := (List.mem_filter.1 this).2
                simp at this; omega
              · simp at h6
      · simp only [Bool.not_eq_true] at hp
        simp only [hp, Bool.not_false, if_true]
        exact ⟨⟨w1, w2, w3⟩, hs⟩
    · simp only [Bool.not_eq_true] at hbr
      simp only [hbr, Bool.false_eq_true, if_false]
      unfold rolloutRecreate
      cases hp : o.preOk
      · simp only [Bool.not_false, if_true]; exact ⟨⟨w1, w2, w3⟩, hs⟩
      · simp only [Bool.not_true, Bool.false_eq_true, if_false]
        by_cases ha : (active a.old).length > 0
        · simp only [ha, if_true]
          have hz := zeroAll_spec d o.scaleEnv.ok (active a.old)
          have hnm : ((a.old.filter (fun s => !decide (s.spec > 0)) ++ (zeroAll d o.scaleEnv.ok (active a.old)).1).map (·.name)).Perm (a.old.map (·.name)) := by
            rw [List.map_append, hz.1, ← List.map_append]
            exact (split_perm a.old (fun s => decide (s.spec > 0))).map _
          refine ⟨⟨w1, ?_, ?_⟩, ?_⟩
          · simp only
            rw [List.map_append] at w2 ⊢
            exact (hnm.append_right _).nodup_iff.2 w2
          · intro s hsm
            simp only at hsm
            rcases List.mem_append.1 hsm with hsm | hsm
            · rcases List.mem_append.1 hsm with hsm | hsm
              · exact hnno s (List.mem_filter.1 hsm).1
              · rcases hz.2 s hsm with h | h
                · omega
                · exact hnno s (List.mem_filter.1 h).1
            · exact w3 s (List.mem_append.2 (Or.inr hsm))
          · rcases hs with h | h
            · exact Or.inl h
            · exfalso
              have := (active_eq_nil a.old).2 (fun s hs => by have := h s hs; omega)
              omega
        · simp only [ha, if_false]
          by_cases hr' : oldMachinesRunning ⟨a.old, a.new, status, a.machines⟩ = true
          · simp only [hr', if_true]; exact ⟨⟨w1, w2, w3⟩, hs⟩
          · simp only [Bool.not_eq_true] at hr'
            simp only [hr', Bool.false_eq_true, if_false]
            have hz := (active_eq_nil a.old).1 (by omega)
            have hg : OldGone a.old a.machines := fun s hs => ⟨by have := hz s hs; have := hnno s hs; omega, not_running _ hr' w2 s hs⟩
            have hspec : ∀ n : MSet, 0 ≤ n.spec → 0 ≤ (scaleSetEv d (o.scaleEnv.ok n) n d.replicas).1.spec := by
              intro n hn
              rcases scaleSetEv_spec d (o.scaleEnv.ok n) n d.replicas with h | h
              · omega
              · rw [h]; exact hn
            cases hn : a.new with
            | some n =>
              simp only
              refine ⟨⟨w1, ?_, ?_⟩, Or.inr hg⟩
              · simp only [Option.toList, List.map_append, List.map_cons, List.map_nil, scaleSetEv_name]
                rw [hn] at w2; simpa using w2
              · intro s hsm
                simp only at hsm
                rcases List.mem_append.1 hsm with hsm | hsm
                · exact hnno s hsm
                · simp at hsm; subst hsm; exact hspec n (w3 n (by simp [hn]))
            | none =>
              simp only
              cases hcr : o.created with
              | none =>
                simp only
                refine ⟨⟨w1, ?_, ?_⟩, Or.inl rfl⟩
                · rw [hn] at w2; exact w2
                · rw [hn] at w3; exact w3
              | some n =>
                simp only
                obtain ⟨c1, c2⟩ := hc n hcr
                refine ⟨⟨w1, ?_, ?_⟩, Or.inr hg⟩
                · rw [hn] at w2
                  simp only [Option.toList, List.map_append, List.map_cons, List.map_nil, scaleSetEv_name, List.append_nil] at w2 ⊢
                  refine List.nodup_append.2 ⟨w2, by simp, ?_⟩
                  intro x hx y hy
                  simp at hy; subst hy
                  rintro rfl; exact c1 hx
                · intro s hsm
                  simp only at hsm
                  rcases List.mem_append.1 hsm with hsm | hsm
                  · exact hnno s hsm
                  · simp at hsm; subst hsm; exact hspec n c2

/-- **C14** (partial): along every history – any interleaving of controller runs with any API failures and any reported
status, machine creations and removals, scaling, pausing, and changes to templates *that no existing machine set carries* –
whenever the set of the current template wants machines, no old set wants machines and no machine of an old set exists. -/
theorem C14_never_mixed_partial (a b : World) (hw : WellFormed a) (hs : Separated a) (h : Steps a b) :
    NewWanted b.new → OldGone b.old b.machines := by
  have : WellFormed b ∧ Separated b := by
    induction h with
    | refl => exact ⟨hw, hs⟩
    | tail _ hst ih => exact step_inv _ _ hst ih.1 ih.2
  rintro ⟨n, hn, _⟩
  rcases this.2 with h | h
  · rw [hn] at h; simp at h
  · exact h

/-! ### The full statement is false -/

private def dR : Dep := { replicas := 2, strategy := .recreate, maxSurge := none, maxUnavailable := none }
private def mset (name : String) (spec : Int) : MSet := ⟨name, spec, 0, some "2", some "2", 0⟩

/-- Going back to a template that still has a (scaled-down) machine set `A` while `B` is current: the first run scales `B`
to zero, the second run sees no set wanting machines, takes this for a scale-up from zero and scales `A` up although both
machines of `B` still exist. -/
theorem C14_return_to_old_template_mixes_false :
    let machines : String → Nat := fun n => if n = "B" then 2 else 0
    let status : String → Int := fun n => if n = "B" then 2 else 0
    let r1 := reconcile dR false {} ⟨[mset "B" 2], some (mset "A" 0), status, machines⟩
    let r2 := reconcile dR false {} ⟨r1.1, r1.2, status, machines⟩
    r1 = ([mset "B" 0], some (mset "A" 0)) ∧ r2 = ([mset "B" 0], some (mset "A" 2)) := by decide +kernel

-- a fresh template: B is scaled down, the run waits for its machines, then the new set is created with full size
example : let machines : String → Nat := fun n => if n = "B" then 2 else 0
    let r1 := reconcile dR false {} ⟨[mset "B" 2], none, fun _ => 0, machines⟩
    let r2 := reconcile dR false {} ⟨r1.1, r1.2, fun _ => 0, machines⟩
    let r3 := reconcile dR false { created := some (mset "C" 2) } ⟨r2.1, r2.2, fun _ => 0, fun _ => 0⟩
    r2 = ([mset "B" 0], none) ∧ r3 = ([mset "B" 0], some (mset "C" 2)) := by decide +kernel
example : WellFormed ⟨2, false, [mset "B" 2], none, fun _ => 2⟩ ∧ Separated ⟨2, false, [mset "B" 2], none, fun _ => 2⟩ :=
  ⟨⟨by simp, by simp, by simp [mset]⟩, Or.inl rfl⟩

end MCM.Recreate
