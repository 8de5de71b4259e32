import Verif.Model.Template
import Verif.Lemmas.SMap
import Mathlib.Data.List.Perm.Subperm
import Mathlib.Data.List.Nodup
/-!
# C16 – a machine set is recognised as carrying the current template iff the templates are the same
-/
namespace MCM.Template
open MCM

/-! ## Independent specification -/

/-- The labels agree apart from the hash label, and the compared part of the body is the same. -/
def SameTemplate (a b : Tmpl) : Prop :=
  (∀ k, k ≠ "machine-template-hash" → List.lookup k a.labels = List.lookup k b.labels) ∧ a.body = b.body

/-- every key occurs once, as in a Go map -/
def IsMap (m : SMap) : Prop := (m.map Prod.fst).Nodup

/-- no label has an empty value -/
def NoEmptyValue (m : SMap) : Prop := ∀ k v, List.lookup k m = some v → v ≠ ""

/-- What the controller relies on: machine sets carry the hash label and deployments do not. -/
structure Normal (set dep : Tmpl) : Prop where
  setMap : IsMap set.labels
  depMap : IsMap dep.labels
  setHash : List.lookup "machine-template-hash" set.labels ≠ none
  depHash : List.lookup "machine-template-hash" dep.labels = none
  setVal : NoEmptyValue set.labels
  depVal : NoEmptyValue dep.labels

/-! ## Lemmas -/

theorem labelsMatch_of_same (a b : SMap) (ha : IsMap a) (hb : IsMap b)
    (h : ∀ k, k ≠ hashKey → List.lookup k a = List.lookup k b) : labelsMatch a b = true := by
  unfold labelsMatch
  dsimp only
  rw [List.all_eq_true]
  rintro ⟨k, v⟩ hm
  by_cases hk : k = hashKey
  · simp [hk]
  · split at hm
    · have := lookup_of_mem a k v ha hm
      rw [if_pos ‹_›]
      simp [SMap.get, ← h k hk, this]
    · have := lookup_of_mem b k v hb hm
      rw [if_neg ‹_›]
      simp [SMap.get, h k hk, this]

/-- if every entry of `b` (no empty value) other than the hash is found in `a` then it is an entry of `a` -/
theorem sub_of_all (a b : SMap) (hb : IsMap b) (hv : NoEmptyValue b) (h : (b.all fun e => !(a.get e.1 != e.2 && e.1 != hashKey)) = true) :
    b.filter (fun e => e.1 != hashKey) ⊆ a.filter (fun e => e.1 != hashKey) := by
  rw [List.all_eq_true] at h
  rintro ⟨k, v⟩ hm
  rw [List.mem_filter] at hm
  have h1 := h _ hm.1
  have hk : k ≠ hashKey := by simpa using hm.2
  simp only [Bool.not_and, Bool.or_eq_true, Bool.not_eq_true', bne_eq_false_iff_eq, hk] at h1
  have h2 : a.get k = v := by simpa using h1
  rw [get_eq_some_iff a k v (hv k v (lookup_of_mem b k v hb hm.1))] at h2
  exact List.mem_filter.2 ⟨mem_of_lookup _ _ _ h2, hm.2⟩

theorem nodup_of_map (a : SMap) (ha : IsMap a) : a.Nodup := List.Nodup.of_map _ ha

theorem filter_len_hash (a : SMap) (ha : IsMap a) (h : List.lookup hashKey a ≠ none) :
    a.length = (a.filter (fun e => e.1 != hashKey)).length + 1 := by
  induction a with
  | nil => simp at h
  | cons e a ih =>
    obtain ⟨k, v⟩ := e
    unfold IsMap at ha
    simp only [List.map_cons, List.nodup_cons] at ha
    by_cases hk : k = hashKey
    · subst hk
      have hall : a.filter (fun e => e.1 != hashKey) = a := by
        rw [List.filter_eq_self]
        intro x hx
        simp only [bne_iff_ne, ne_eq]
        intro he
        exact ha.1 (List.mem_map.2 ⟨x, hx, he⟩)
      simp [hall]
    · have h1 : (k != hashKey) = true := by simpa using hk
      have h2 : (hashKey == k) = false := by simpa using Ne.symm hk
      simp only [List.lookup, h2] at h
      simp only [List.filter_cons, h1, if_true, List.length_cons]
      rw [ih ha.2 h]

theorem filter_hash_absent (a : SMap) (ha : IsMap a) (h : List.lookup hashKey a = none) : a.filter (fun e => e.1 != hashKey) = a := by
  rw [List.filter_eq_self]
  rintro ⟨k, v⟩ hx
  simp only [bne_iff_ne, ne_eq]
  rintro rfl
  rw [lookup_of_mem a _ v ha hx] at h
  exact absurd h (by simp)

theorem same_of_perm (a b : SMap) (ha : IsMap a) (hb : IsMap b)
    (hp : (a.filter (fun e => e.1 != hashKey)).Perm (b.filter (fun e => e.1 != hashKey))) :
    ∀ k, k ≠ hashKey → List.lookup k a = List.lookup k b := by
  have key : ∀ (a b : SMap), IsMap b → (a.filter (fun e => e.1 != hashKey)).Perm (b.filter (fun e => e.1 != hashKey)) →
      ∀ k v, k ≠ hashKey → List.lookup k a = some v → List.lookup k b = some v := by
    intro a b hb hp k v hk h
    have hm : (k, v) ∈ a.filter (fun e => e.1 != hashKey) := List.mem_filter.2 ⟨mem_of_lookup _ _ _ h, by simpa using hk⟩
    exact lookup_of_mem b k v hb (List.mem_filter.1 (hp.subset hm)).1
  intro k hk
  cases h1 : List.lookup k a with
  | some v => exact (key a b hb hp k v hk h1).symm
  | none =>
    cases h2 : List.lookup k b with
    | none => rfl
    | some v => rw [key b a ha hp.symm k v hk h2] at h1; exact absurd h1 (by simp)

theorem perm_of_sub_len (a b : SMap) (hb : IsMap b)
    (h : b.filter (fun e => e.1 != hashKey) ⊆ a.filter (fun e => e.1 != hashKey))
    (hl : (a.filter (fun e => e.1 != hashKey)).length ≤ (b.filter (fun e => e.1 != hashKey)).length) :
    (a.filter (fun e => e.1 != hashKey)).Perm (b.filter (fun e => e.1 != hashKey)) := by
  have hs := List.subperm_of_subset ((nodup_of_map b hb).filter _) h
  exact (hs.perm_of_length_le hl).symm

/-! ## Theorems -/

/-- **C16**, first direction, in both argument orders and for all label maps: the same template is always recognised. -/
theorem C16_same_recognised (a b : Tmpl) (ha : IsMap a.labels) (hb : IsMap b.labels) (h : SameTemplate a b) :
    equalIgnoreHash a b = true ∧ equalIgnoreHash b a = true := by
  unfold equalIgnoreHash
  rw [labelsMatch_of_same _ _ ha hb h.1, labelsMatch_of_same _ _ hb ha (fun k hk => (h.1 k hk).symm)]
  simp [h.2]

/-- **C16** for the order used to find the current machine set (machine set first): recognition is exact. -/
theorem C16_recognised_iff_partial (set dep : Tmpl) (hn : Normal set dep) :
    equalIgnoreHash set dep = true ↔ SameTemplate set dep := by
  refine ⟨?_, fun h => (C16_same_recognised set dep hn.setMap hn.depMap h).1⟩
  intro h
  simp only [equalIgnoreHash, Bool.and_eq_true, beq_iff_eq] at h
  refine ⟨?_, h.2⟩
  have hl1 := filter_len_hash set.labels hn.setMap hn.setHash
  have hl2 := filter_hash_absent dep.labels hn.depMap hn.depHash
  have h1 := h.1
  unfold labelsMatch at h1
  dsimp only at h1
  split at h1
  · have hs := sub_of_all dep.labels set.labels hn.setMap hn.setVal h1
    have hp := perm_of_sub_len dep.labels set.labels hn.setMap hs (by rw [hl2]; omega)
    exact same_of_perm _ _ hn.setMap hn.depMap hp.symm
  · have hs := sub_of_all set.labels dep.labels hn.depMap hn.depVal h1
    have hs' := List.subperm_of_subset ((nodup_of_map _ hn.depMap).filter _) hs
    have := hs'.length_le
    rw [hl2] at this
    omega

/-- **C16** for the order used by rollback and by the hash-collision check (deployment first): exact when the two label maps
have different sizes; with equal sizes see `C16_deployment_first_false`. -/
theorem C16_deployment_first_partial (set dep : Tmpl) (hn : Normal set dep) (hlen : dep.labels.length ≠ set.labels.length) :
    equalIgnoreHash dep set = true ↔ SameTemplate dep set := by
  refine ⟨?_, fun h => (C16_same_recognised dep set hn.depMap hn.setMap h).1⟩
  intro h
  simp only [equalIgnoreHash, Bool.and_eq_true, beq_iff_eq] at h
  refine ⟨?_, h.2⟩
  have hl1 := filter_len_hash set.labels hn.setMap hn.setHash
  have hl2 := filter_hash_absent dep.labels hn.depMap hn.depHash
  have h1 := h.1
  unfold labelsMatch at h1
  dsimp only at h1
  split at h1
  · have hs := sub_of_all set.labels dep.labels hn.depMap hn.depVal h1
    have hs' := List.subperm_of_subset ((nodup_of_map _ hn.depMap).filter _) hs
    have := hs'.length_le
    rw [hl2] at this
    omega
  · have hs := sub_of_all dep.labels set.labels hn.setMap hn.setVal h1
    have hp := perm_of_sub_len dep.labels set.labels hn.setMap hs (by rw [hl2]; omega)
    exact same_of_perm _ _ hn.depMap hn.setMap hp

/-- every label of the set other than the hash is a label of the deployment -/
def Covers (dep set : Tmpl) : Prop := ∀ k v, k ≠ "machine-template-hash" → List.lookup k set.labels = some v → List.lookup k dep.labels = some v

/-- **C16**, deployment first, exactly: besides the same templates those are taken for the same in which the deployment has all labels of the set and one more. -/
theorem C16_deployment_first_exact (set dep : Tmpl) (hn : Normal set dep) :
    equalIgnoreHash dep set = true ↔ SameTemplate dep set ∨ (dep.body = set.body ∧ Covers dep set ∧ dep.labels.length = set.labels.length) := by
  by_cases hlen : dep.labels.length = set.labels.length
  · constructor
    · intro h
      simp only [equalIgnoreHash, Bool.and_eq_true, beq_iff_eq] at h
      refine .inr ⟨h.2, ?_, hlen⟩
      have h1 := h.1
      unfold labelsMatch at h1
      dsimp only at h1
      rw [if_neg (by omega)] at h1
      have hs := sub_of_all dep.labels set.labels hn.setMap hn.setVal h1
      intro k v hk hl
      have := hs (List.mem_filter.2 ⟨mem_of_lookup _ _ _ hl, by simpa [hashKey] using hk⟩)
      exact lookup_of_mem _ _ _ hn.depMap (List.mem_filter.1 this).1
    · rintro (h | ⟨hb, hc, _⟩)
      · exact (C16_same_recognised dep set hn.depMap hn.setMap h).1
      · simp only [equalIgnoreHash, Bool.and_eq_true, beq_iff_eq]
        refine ⟨?_, hb⟩
        unfold labelsMatch
        dsimp only
        rw [if_neg (by omega), List.all_eq_true]
        rintro ⟨k, v⟩ hm
        by_cases hk : k = hashKey
        · simp [hk]
        · have := hc k v hk (lookup_of_mem _ _ _ hn.setMap hm)
          simp [SMap.get, this]
  · rw [C16_deployment_first_partial set dep hn hlen]
    exact ⟨.inl, fun h => h.resolve_right fun h => hlen h.2.2⟩

/-- **C16** for the list: the set found is the oldest one with the deployment's template, and nothing is found only if no set has
it. -/
theorem C16_find_new_partial (dep : Tmpl) (sorted : List MSet) (hn : ∀ s ∈ sorted, Normal s.template dep)
    (hs : sorted.Pairwise (fun a b => a.creation ≤ b.creation)) :
    (∀ s, findNew dep sorted = some s → s ∈ sorted ∧ SameTemplate s.template dep
      ∧ ∀ x ∈ sorted, SameTemplate x.template dep → s.creation ≤ x.creation)
    ∧ (findNew dep sorted = none → ∀ s ∈ sorted, ¬ SameTemplate s.template dep) := by
  constructor
  · intro s h
    unfold findNew at h
    rw [List.find?_eq_some_iff_append] at h
    obtain ⟨h1, as, bs, h2, h3⟩ := h
    refine ⟨by simp [h2], (C16_recognised_iff_partial _ _ (hn s (by simp [h2]))).1 h1, ?_⟩
    intro x hx hc
    rw [h2] at hx hs
    rcases List.mem_append.1 hx with hx | hx
    · have := h3 x hx
      rw [(C16_recognised_iff_partial _ _ (hn x (by simp [h2, hx]))).2 hc] at this
      simp at this
    · rcases List.mem_cons.1 hx with rfl | hx
      · exact Int.le_refl _
      · exact (List.pairwise_cons.1 (List.pairwise_append.1 hs).2.1).1 x hx
  · intro h s hs hc
    unfold findNew at h
    rw [List.find?_eq_none] at h
    exact h s hs ((C16_recognised_iff_partial _ _ (hn s hs)).2 hc)

/-- Every set is either the new one or an old one, never both. -/
theorem C16_old_or_new (dep : Tmpl) (sorted : List MSet) (hnd : (sorted.map (·.name)).Nodup) (s : MSet) (hs : s ∈ sorted) :
    s ∈ findOld dep sorted ↔ findNew dep sorted ≠ some s := by
  unfold findOld
  cases h : findNew dep sorted with
  | none => simp [hs]
  | some n =>
    have hn : n ∈ sorted := List.mem_of_find?_eq_some h
    simp only [List.mem_filter, hs, true_and, Bool.not_eq_true', beq_eq_false_iff_ne, ne_eq, Option.some.injEq]
    constructor
    · rintro h1 rfl; exact h1 rfl
    · intro h1 he
      exact h1 ((List.inj_on_of_nodup_map hnd) hn hs he.symm)

/-- The full statement fails when the deployment comes first: a deployment with one more label than the machine set is taken to
have the same template. -/
theorem C16_deployment_first_false : ∃ set dep : Tmpl, Normal set dep ∧ equalIgnoreHash dep set = true ∧ ¬ SameTemplate dep set := by
  refine ⟨{ labels := [("app", "a"), ("machine-template-hash", "7")] }, { labels := [("app", "a"), ("tier", "gold")] },
    ⟨by unfold IsMap; decide, by unfold IsMap; decide, by decide, by decide, ?_, ?_⟩, by decide, ?_⟩
  · intro k v h hv
    have := mem_of_lookup _ _ _ h
    subst hv
    simp at this
  · intro k v h hv
    have := mem_of_lookup _ _ _ h
    subst hv
    simp at this
  · intro h
    have := h.1 "tier" (by decide)
    revert this
    decide

/-- The full statement also fails, in the order used to find the current machine set, for labels with empty values (which the API
allows): the label key is not required to be present. -/
theorem C16_empty_value_false : ∃ set dep : Tmpl, IsMap set.labels ∧ IsMap dep.labels ∧
    List.lookup "machine-template-hash" set.labels ≠ none ∧ List.lookup "machine-template-hash" dep.labels = none ∧
    equalIgnoreHash set dep = true ∧ ¬ SameTemplate set dep := by
  refine ⟨{ labels := [("app", "a"), ("spot", ""), ("machine-template-hash", "7")] }, { labels := [("app", "a"), ("tier", "gold")] },
    by unfold IsMap; decide, by unfold IsMap; decide, by decide, by decide, by decide, ?_⟩
  intro h
  have := h.1 "tier" (by decide)
  revert this
  decide

/-- Changes of node template, machine configuration and class kind alone never make a set an old one (they are applied in place). -/
theorem C16_in_place_fields (set dep : Tmpl) (nt cfg kind : String) :
    equalIgnoreHash { set with nodeTemplate := nt, config := cfg, classKind := kind } dep = equalIgnoreHash set dep := rfl

/-! ## Concrete cases -/

example : Normal { labels := [("app", "a"), ("machine-template-hash", "7")], body := "x" } { labels := [("app", "a")], body := "x" } := by
  refine ⟨by unfold IsMap; decide, by unfold IsMap; decide, by decide, by decide, ?_, ?_⟩ <;>
  · intro k v h hv
    have := mem_of_lookup _ _ _ h
    subst hv
    simp at this

example : equalIgnoreHash { labels := [("app", "a"), ("machine-template-hash", "7")], body := "x" } { labels := [("app", "a")], body := "x" } = true
    ∧ equalIgnoreHash { labels := [("app", "b"), ("machine-template-hash", "7")], body := "x" } { labels := [("app", "a")], body := "x" } = false := by
  decide

example : (findNew { body := "x" } [⟨"a", { body := "y" }, [], 0⟩, ⟨"b", { body := "x" }, [], 1⟩, ⟨"c", { body := "x" }, [], 2⟩]).map (·.name) = some "b" := by
  decide

end MCM.Template
