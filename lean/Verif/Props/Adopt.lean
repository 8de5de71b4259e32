import Verif.Model.Adopt
import Verif.Lemmas.SMap
import Verif.Model.Claim
/-!
C82: adopting a machine set loses no machine.
-/
namespace MCM.Adopt
open MCM MCM.Template

/-- the labels satisfy the selector -/
def Selects (selector labels : SMap) : Prop := ∀ k v, List.lookup k selector = some v → List.lookup k labels = some v

theorem selects_set (selector labels : SMap) (hash : String) (h : Selects selector labels) (hh : List.lookup hashKey labels = some hash) :
    Selects (selector.set hashKey hash) labels := by
  intro k v hl
  by_cases hk : k = hashKey
  · subst hk; rw [lookup_set_eq] at hl; cases hl; exact hh
  · rw [lookup_set_ne _ _ _ _ hk] at hl; exact h k v hl

/-- what labelling does to a machine -/
def Labelled (hash : String) (a b : Mach) : Prop := b = a ∨ b = { a with labels := a.labels.set hashKey hash }

theorem setLabel_rel (hash name : String) (ms : List Mach) (b : Mach) (hb : b ∈ setLabel hash name ms) : ∃ a ∈ ms, Labelled hash a b ∧ (a.name = name → List.lookup hashKey b.labels = some hash) := by
  unfold setLabel at hb
  obtain ⟨a, ha, rfl⟩ := List.mem_map.1 hb
  refine ⟨a, ha, ?_, ?_⟩
  · split
    · exact .inr rfl
    · exact .inl rfl
  · intro hn
    rw [if_pos (by simpa using hn)]
    exact lookup_set_eq ..

theorem labelMachines_rel (hash : String) (c : Calls) (listed : List Mach) : ∀ ms b, b ∈ (labelMachines hash c listed ms).1 →
    ∃ a ∈ ms, a.name = b.name ∧ (List.lookup hashKey a.labels = some hash → List.lookup hashKey b.labels = some hash) ∧
      (∀ k, k ≠ hashKey → List.lookup k b.labels = List.lookup k a.labels) ∧
      ((labelMachines hash c listed ms).2 = true → ∀ l ∈ listed, l.name = b.name → l.active = true → l.labels.get hashKey ≠ hash → List.lookup hashKey b.labels = some hash) := by
  induction listed with
  | nil => intro ms b hb; exact ⟨b, hb, rfl, id, fun _ _ => rfl, fun _ l hl => absurd hl List.not_mem_nil⟩
  | cons l ls ih =>
    intro ms b hb
    rw [labelMachines] at hb ⊢
    split at hb
    · rename_i h
      rw [if_pos h]
      obtain ⟨a, h1, h2, h3, h4, h5⟩ := ih ms b hb
      refine ⟨a, h1, h2, h3, h4, fun hok x hx hn hact hne => ?_⟩
      rcases List.mem_cons.1 hx with rfl | hx
      · rw [hact] at h; cases h
      · exact h5 hok x hx hn hact hne
    · rename_i h
      rw [if_neg h]
      split at hb
      · rename_i hl
        rw [if_pos hl]
        obtain ⟨a, h1, h2, h3, h4, h5⟩ := ih ms b hb
        refine ⟨a, h1, h2, h3, h4, fun hok x hx hn hact hne => ?_⟩
        rcases List.mem_cons.1 hx with rfl | hx
        · exact absurd (by simpa using hl) hne
        · exact h5 hok x hx hn hact hne
      · rename_i hl
        rw [if_neg hl]
        split at hb
        · rename_i ho
          rw [if_pos ho]
          obtain ⟨a, h1, h2, h3, h4, h5⟩ := ih _ b hb
          obtain ⟨a', h1', h2', h3'⟩ := setLabel_rel hash l.name ms a h1
          have hname : a'.name = a.name := by rcases h2' with rfl | rfl <;> rfl
          refine ⟨a', h1', hname.trans h2, fun hh => h3 ?_, fun k hk => ?_, fun hok x hx hn hact hne => ?_⟩
          · rcases h2' with rfl | rfl
            · exact hh
            · exact lookup_set_eq ..
          · rw [h4 k hk]
            rcases h2' with rfl | rfl
            · rfl
            · exact lookup_set_ne _ _ _ _ hk
          · rcases List.mem_cons.1 hx with rfl | hx
            · exact h3 (h3' (by rw [hname, h2, hn]))
            · exact h5 hok x hx hn hact hne
        · rename_i ho
          rw [if_neg ho]
          exact ⟨b, hb, rfl, id, fun _ _ => rfl, fun hok => nomatch hok⟩

/-- the outcome of a run that narrows the selector -/
theorem addHash_narrowed (hash : String) (c : Calls) (s : Set') (listed ms : List Mach) (h0 : s.selector.get hashKey = "")
    (hn : (addHash hash c s listed ms).set.selector.get hashKey ≠ "") :
    (addHash hash c s listed ms).set = { s with template := s.template.set hashKey hash, labels := s.labels.set hashKey hash, selector := s.selector.set hashKey hash } ∧
    (addHash hash c s listed ms).machines = (labelMachines hash c listed ms).1 ∧ (labelMachines hash c listed ms).2 = true ∧ c.labelled = some s.replicas := by
  unfold addHash at hn ⊢
  rw [if_neg (by simp [h0])] at hn ⊢
  dsimp only at hn ⊢
  split at hn
  · exact absurd h0 hn
  · split at hn
    · exact absurd h0 hn
    · split at hn
      · exact absurd h0 hn
      · split at hn
        · exact absurd h0 hn
        · split at hn
          · exact absurd h0 hn
          · split at hn
            · exact absurd h0 hn
            rename_i h1 h2 h3 h4 h5 h6
            rw [if_neg h1, if_neg h2, if_neg h3, if_neg h4, if_neg h5, if_neg h6]
            exact ⟨rfl, rfl, by simpa using h3, by simpa using h4⟩

/-- C82: When the selector is narrowed, every active machine the run started from is still selected. -/
theorem C82_active_kept_partial (hash : String) (c : Calls) (s : Set') (listed ms : List Mach) (h0 : s.selector.get hashKey = "")
    (hn : (addHash hash c s listed ms).set.selector.get hashKey ≠ "")
    (hl : ∀ l ∈ listed, l.labels.get hashKey = hash → ∀ m ∈ ms, m.name = l.name → List.lookup hashKey m.labels = some hash)
    (b : Mach) (hb : b ∈ (addHash hash c s listed ms).machines) (hact : ∃ l ∈ listed, l.name = b.name ∧ l.phase ≠ .failed ∧ l.phase ≠ .terminating)
    (hsel : ∀ m ∈ ms, Selects s.selector m.labels) (hno : List.lookup hashKey s.selector = none) :
    Selects (addHash hash c s listed ms).set.selector b.labels := by
  obtain ⟨e1, e2, e3, _⟩ := addHash_narrowed hash c s listed ms h0 hn
  rw [e2] at hb
  rw [e1]
  obtain ⟨a, ha, hname, h3, h4, h5⟩ := labelMachines_rel hash c listed ms b hb
  refine selects_set _ _ _ (fun k v hk => ?_) ?_
  · have hk' : k ≠ hashKey := fun he => by rw [he, hno] at hk; cases hk
    rw [h4 k hk']
    exact hsel a ha k v hk
  · obtain ⟨l, hlm, hln, hl1, hl2⟩ := hact
    have hla : l.active = true := by unfold Mach.active; simp [hl1, hl2]
    by_cases hg : l.labels.get hashKey = hash
    · exact h3 (hl l hlm hg a ha (by rw [hname, hln]))
    · exact h5 e3 l hlm hln hla hg

theorem filter_all {α : Type} (p : α → Bool) (l : List α) (h : l.length ≤ (l.filter p).length) (a : α) (ha : a ∈ l) : p a = true := by
  have h1 := List.length_filter_le p l
  have h2 : (l.filter p).length = l.length := by omega
  rw [List.length_filter_eq_length_iff] at h2
  exact h2 a ha

/-- C82, the part that holds for all machines: if the number of machines the set controller counted is right and the set does not have more machines
than it should, every machine of the set is still selected when the selector is narrowed. The full statement has no condition on the
number of machines; it is refuted below. -/
theorem C82_all_kept_partial (hash : String) (c : Calls) (s : Set') (listed ms : List Mach) (h0 : s.selector.get hashKey = "")
    (hn : (addHash hash c s listed ms).set.selector.get hashKey ≠ "")
    (htrue : c.labelled = some (countLabelled (s.template.set hashKey hash) (addHash hash c s listed ms).machines))
    (hfew : ((addHash hash c s listed ms).machines.length : Int) ≤ s.replicas)
    (hsel : ∀ m ∈ ms, Selects s.selector m.labels) (hno : List.lookup hashKey s.selector = none)
    (b : Mach) (hb : b ∈ (addHash hash c s listed ms).machines) : Selects (addHash hash c s listed ms).set.selector b.labels := by
  obtain ⟨e1, e2, e3, e4⟩ := addHash_narrowed hash c s listed ms h0 hn
  rw [e2] at hb htrue hfew
  rw [e1]
  obtain ⟨a, ha, hname, h3, h4, h5⟩ := labelMachines_rel hash c listed ms b hb
  refine selects_set _ _ _ (fun k v hk => ?_) ?_
  · have hk' : k ≠ hashKey := fun he => by rw [he, hno] at hk; cases hk
    rw [h4 k hk']
    exact hsel a ha k v hk
  · rw [e4] at htrue
    have hc := Option.some.inj htrue
    unfold countLabelled at hc
    have := filter_all (fun m : Mach => (s.template.set hashKey hash).all fun e => List.lookup e.1 m.labels == some e.2) _ (by omega) b hb
    rw [List.all_eq_true] at this
    have := this (hashKey, hash) (by unfold SMap.set; exact List.mem_cons_self)
    simpa using this

/-- C82: Until then nothing is lost: a run that ends earlier leaves the selector as it was, and machines keep all other labels. -/
theorem C82_selector_last (hash : String) (c : Calls) (s : Set') (listed ms : List Mach) :
    ((addHash hash c s listed ms).ok = false → (addHash hash c s listed ms).set.selector = s.selector) ∧
    (∀ b ∈ (addHash hash c s listed ms).machines, ∃ a ∈ ms, a.name = b.name ∧ ∀ k, k ≠ hashKey → List.lookup k b.labels = List.lookup k a.labels) := by
  have hrel : ∀ b ∈ (labelMachines hash c listed ms).1, ∃ a ∈ ms, a.name = b.name ∧ ∀ k, k ≠ hashKey → List.lookup k b.labels = List.lookup k a.labels := by
    intro b hb
    obtain ⟨a, h1, h2, _, h4, _⟩ := labelMachines_rel hash c listed ms b hb
    exact ⟨a, h1, h2, h4⟩
  have hid : ∀ b ∈ ms, ∃ a ∈ ms, a.name = b.name ∧ ∀ k, k ≠ hashKey → List.lookup k b.labels = List.lookup k a.labels :=
    fun b hb => ⟨b, hb, rfl, fun _ _ => rfl⟩
  unfold addHash
  dsimp only
  split
  · exact ⟨fun h => (nomatch h), hid⟩
  · split
    · exact ⟨fun _ => rfl, hid⟩
    · split
      · exact ⟨fun _ => rfl, hid⟩
      · split
        · exact ⟨fun _ => rfl, hrel⟩
        · split
          · exact ⟨fun _ => rfl, hrel⟩
          · split
            · exact ⟨fun _ => rfl, hrel⟩
            · split
              · exact ⟨fun _ => rfl, hrel⟩
              · exact ⟨fun h => (nomatch h), hrel⟩

/-- C82: Machines made from the template after the selector was narrowed are selected too. -/
theorem C82_new_machines (hash : String) (c : Calls) (s : Set') (listed ms : List Mach) (h0 : s.selector.get hashKey = "")
    (hn : (addHash hash c s listed ms).set.selector.get hashKey ≠ "") (hs : Selects s.selector s.template) :
    Selects (addHash hash c s listed ms).set.selector (addHash hash c s listed ms).set.template := by
  obtain ⟨e1, _⟩ := addHash_narrowed hash c s listed ms h0 hn
  rw [e1]
  intro k v hl
  by_cases hk : k = hashKey
  · subst hk
    change List.lookup hashKey (s.selector.set hashKey hash) = some v at hl
    rw [lookup_set_eq] at hl
    cases hl
    exact lookup_set_eq ..
  · change List.lookup k (s.selector.set hashKey hash) = some v at hl
    rw [lookup_set_ne _ _ _ _ hk] at hl
    change List.lookup k (s.template.set hashKey hash) = some v
    rw [lookup_set_ne _ _ _ _ hk]
    exact hs k v hl

/-! ### Witnesses -/

def sampleSet : Set' := { selector := [("a", "1")], template := [("a", "1")], replicas := 1 }
def sampleMachines : List Mach := [{ name := "m1", labels := [("a", "1")] }, { name := "m2", labels := [("a", "1")], phase := .failed }]

/-- C82, false part: A failed machine that has been replaced but not yet been deleted gets no label. The set controller counts rightly, the selector is
narrowed, and the machine is not selected any more. -/
theorem C82_failed_machine_false :
    (addHash "7" { labelled := some (countLabelled (sampleSet.template.set hashKey "7") (addHash "7" { labelled := some 1 } sampleSet sampleMachines sampleMachines).machines) }
      sampleSet sampleMachines sampleMachines).ok = true ∧
    ∃ b ∈ (addHash "7" { labelled := some 1 } sampleSet sampleMachines sampleMachines).machines,
      ¬ Selects (addHash "7" { labelled := some 1 } sampleSet sampleMachines sampleMachines).set.selector b.labels := by
  refine ⟨by decide +kernel, { name := "m2", labels := [("a", "1")], phase := .failed }, by decide +kernel, fun h => ?_⟩
  have := h hashKey "7" (by decide +kernel)
  revert this
  decide +kernel

/-- C82, false part, continued: the set controller then gives the machine up, so nobody will ever delete its VM. -/
theorem C82_released_false :
    (Claim.claimObject { uid := "s" } (fun l => (sampleSet.selector.set hashKey "7").all fun e => List.lookup e.1 l == some e.2) none (fun _ => none) none
      { name := "m2", uid := "u", labels := [("a", "1")], owners := [⟨"s", true⟩] }).effs =
      [.release { name := "m2", uid := "u", labels := [("a", "1")], owners := [⟨"s", true⟩] }] := by decide +kernel

/-- C82, false part: If the set cannot reach its size (for instance because it is frozen), every run fails, and with it everything else the
deployment controller should do for the deployment. -/
theorem C82_blocked_false (hash : String) (c : Calls) (s : Set') (listed ms : List Mach) (h0 : s.selector.get hashKey = "")
    (htrue : ∀ n, c.labelled = some n → n ≤ ms.length) (hmany : (ms.length : Int) < s.replicas) : (addHash hash c s listed ms).ok = false := by
  have hne : c.labelled ≠ some s.replicas := fun h => by have := htrue _ h; omega
  unfold addHash
  dsimp only
  rw [if_neg (by simp [h0])]
  repeat' split
  all_goals first | rfl | contradiction

/-- C82, false part: A set that disappears while the controller waits for it crashes the controller. -/
theorem C82_crash_false : (addHash "7" { labelled := some 1, cached := false } sampleSet sampleMachines sampleMachines).crash = true := by decide +kernel

example : (addHash "7" { labelled := some 1 } sampleSet (sampleMachines.take 1) (sampleMachines.take 1)) =
    ⟨{ labels := [(hashKey, "7")], selector := [(hashKey, "7"), ("a", "1")], template := [(hashKey, "7"), ("a", "1")], replicas := 1 },
      [{ name := "m1", labels := [(hashKey, "7"), ("a", "1")] }], true, false⟩ := by decide +kernel

/-- C82: the label is not written to a machine for which the call fails, and the run does not succeed then. -/
theorem C82_failed_call (hash : String) (c : Calls) (listed : List Mach) : ∀ ms,
    (∀ b ∈ (labelMachines hash c listed ms).1, c.machineOk b.name = false → b ∈ ms) ∧
    (∀ l ∈ listed, l.phase ≠ .failed → l.phase ≠ .terminating → l.labels.get hashKey ≠ hash → (c.machineOk l.name = false ∨ ∀ m ∈ ms, m.name ≠ l.name) →
      (labelMachines hash c listed ms).2 = false) := by
  have hnames : ∀ (n n' : String) (ms : List Mach), (∀ m ∈ ms, m.name ≠ n) → ∀ m ∈ setLabel hash n' ms, m.name ≠ n := by
    intro n n' ms h m hm
    obtain ⟨a, ha, rfl⟩ := List.mem_map.1 hm
    split
    · exact h a ha
    · exact h a ha
  induction listed with
  | nil => intro ms; exact ⟨fun b hb _ => hb, fun l hl => by cases hl⟩
  | cons l ls ih =>
    intro ms
    rw [labelMachines]
    split
    · rename_i hact
      refine ⟨(ih ms).1, fun l' hl' h1 h2 h3 h4 => ?_⟩
      rcases List.mem_cons.1 hl' with rfl | hl'
      · exfalso
        unfold Mach.active at hact
        revert hact
        cases hp : l'.phase <;> simp_all
      · exact (ih ms).2 l' hl' h1 h2 h3 h4
    · split
      · rename_i _ hl
        refine ⟨(ih ms).1, fun l' hl' h1 h2 h3 h4 => ?_⟩
        rcases List.mem_cons.1 hl' with rfl | hl'
        · exact absurd (by simpa using hl) h3
        · exact (ih ms).2 l' hl' h1 h2 h3 h4
      · split
        · rename_i hok
          rw [Bool.and_eq_true] at hok
          refine ⟨fun b hb hbo => ?_, fun l' hl' h1 h2 h3 h4 => ?_⟩
          · have := (ih _).1 b hb hbo
            obtain ⟨a, ha, he⟩ := List.mem_map.1 this
            split at he
            · rename_i hn
              rw [← he] at hbo
              have hn : a.name = l.name := by simpa using hn
              dsimp only at hbo
              rw [hn, hok.1] at hbo; cases hbo
            · rw [← he]; exact ha
          · rcases List.mem_cons.1 hl' with rfl | hl'
            · exfalso
              rcases h4 with h4 | h4
              · rw [hok.1] at h4; cases h4
              · obtain ⟨m, hm, he⟩ := List.any_eq_true.1 hok.2
                exact h4 m hm (by simpa using he)
            · refine (ih _).2 l' hl' h1 h2 h3 ?_
              rcases h4 with h4 | h4
              · exact .inl h4
              · exact .inr (hnames _ _ _ h4)
        · exact ⟨fun b hb _ => hb, fun _ _ _ _ _ _ => rfl⟩

example : labelMachines "7" { labelled := some 1, machineOk := fun n => n != "m1" } [{ name := "m1" }] [{ name := "m1" }] = ([{ name := "m1" }], false) := by decide +kernel

-- the crash comes after the machines have their labels and before the selector is written; no success is reported
example : (addHash "7" { labelled := some 1, cached := false } { replicas := 1 } [{ name := "m1" }] [{ name := "m1" }]).crash = true
    ∧ (addHash "7" { labelled := some 1, cached := false } { replicas := 1 } [{ name := "m1" }] [{ name := "m1" }]).ok = false
    ∧ (addHash "7" { labelled := some 1, cached := false } { replicas := 1 } [{ name := "m1" }] [{ name := "m1" }]).set.selector = [] := by decide +kernel

end MCM.Adopt
