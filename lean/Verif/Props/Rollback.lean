import Verif.Model.Rollback
import Verif.Props.Template
import Verif.Props.Revision
/-!
# C17 – rollback, and C18 – clean-up of old machine sets
-/
namespace MCM.Rollback
open MCM MCM.Template MCM.Revision

/-! ## Independent specification -/

/-- No two machine sets have the same positive revision (established for all executions by `C15_revisions_unique`). -/
def UniqueRev (sets : List MSet) : Prop :=
  sets.Pairwise fun a b => ∀ r, 0 < r → HasRev a.annotations r → ¬ HasRev b.annotations r

/-- `r` is the second greatest revision -/
def SecondGreatest (sets : List MSet) (r : Int) : Prop :=
  0 < r ∧ (∃ s ∈ sets, HasRev s.annotations r) ∧
  ∃ t ∈ sets, ∃ m, HasRev t.annotations m ∧ r < m ∧ ∀ u ∈ sets, ∀ v, HasRev u.annotations v → v = m ∨ v ≤ r

/-- `t` is the template of the machine set without the hash label -/
def TemplateOf (s : MSet) (t : Tmpl) : Prop :=
  (∀ k, List.lookup k t.labels = if k = "machine-template-hash" then none else List.lookup k s.template.labels) ∧
  t.nodeTemplate = s.template.nodeTemplate ∧ t.config = s.template.config ∧ t.classKind = s.template.classKind ∧ t.body = s.template.body

/-- annotations the controller keeps for itself -/
def Reserved (k : String) : Prop :=
  k ∈ ["kubectl.kubernetes.io/last-applied-configuration", "deployment.kubernetes.io/revision", "deployment.kubernetes.io/revision-history",
    "deployment.kubernetes.io/desired-replicas", "deployment.kubernetes.io/max-replicas", "deployment.machine.sapcloud.io/prefer-no-schedule",
    "safety.machine.sapcloud.io/unfreeze"]

/-! ## Lemmas -/

theorem hasRev_of_revision {a : SMap} {r : Int} (h : revision a = some r) (hr : r ≠ 0) : HasRev a r := by
  unfold revision at h
  split at h
  · rename_i hh
    unfold SMap.has at hh
    obtain ⟨s, hs⟩ := Option.isSome_iff_exists.1 hh
    rw [get_of_lookup hs] at h
    exact ⟨s, hs, h⟩
  · simp at h; omega

theorem findRevision_some (rv : Int) (sets : List MSet) (s : MSet) (h : findRevision rv sets = some s) :
    s ∈ sets ∧ revision s.annotations = some rv := by
  induction sets with
  | nil => simp [findRevision] at h
  | cons a rest ih =>
    rw [findRevision] at h
    cases hr : revision a.annotations with
    | none => rw [hr] at h; exact ⟨List.mem_cons_of_mem _ (ih h).1, (ih h).2⟩
    | some v =>
      rw [hr] at h
      dsimp only at h
      split at h
      · rename_i he
        cases h
        exact ⟨by simp, by rw [hr, he]⟩
      · exact ⟨List.mem_cons_of_mem _ (ih h).1, (ih h).2⟩

theorem findRevision_none (rv : Int) (sets : List MSet) (h : findRevision rv sets = none) :
    ∀ s ∈ sets, revision s.annotations ≠ some rv := by
  induction sets with
  | nil => simp
  | cons a rest ih =>
    intro s hs
    rw [findRevision] at h
    cases hr : revision a.annotations with
    | none =>
      rw [hr] at h
      rcases List.mem_cons.1 hs with rfl | hs
      · rw [hr]; simp
      · exact ih h s hs
    | some v =>
      rw [hr] at h
      dsimp only at h
      split at h
      · simp at h
      · rcases List.mem_cons.1 hs with rfl | hs
        · rw [hr]; simpa using ‹¬ v = rv›
        · exact ih h s hs

theorem unique_eq {sets : List MSet} (hu : UniqueRev sets) {s t : MSet} (hs : s ∈ sets) (ht : t ∈ sets) {r : Int} (hp : 0 < r)
    (h1 : HasRev s.annotations r) (h2 : HasRev t.annotations r) : s = t := by
  induction sets with
  | nil => simp at hs
  | cons a rest ih =>
    unfold UniqueRev at hu
    rw [List.pairwise_cons] at hu
    rcases List.mem_cons.1 hs with hsa | hs' <;> rcases List.mem_cons.1 ht with hta | ht'
    · rw [hsa, hta]
    · subst hsa; exact absurd h2 (hu.1 t ht' r hp h1)
    · subst hta; exact absurd h1 (hu.1 s hs' r hp h2)
    · exact ih hu.2 hs' ht'

theorem findRevision_eq (rv : Int) (hp : 0 < rv) (sets : List MSet) (hu : UniqueRev sets) (s : MSet) (hs : s ∈ sets) (h : HasRev s.annotations rv) :
    findRevision rv sets = some s := by
  cases hf : findRevision rv sets with
  | none => exact absurd (revision_of_hasRev h) (findRevision_none rv sets hf s hs)
  | some t =>
    obtain ⟨h1, h2⟩ := findRevision_some rv sets t hf
    rw [unique_eq hu hs h1 hp h (hasRev_of_revision h2 (by omega))]

theorem fromSet_spec (s : MSet) : TemplateOf s (fromSet s.template) := by
  refine ⟨?_, rfl, rfl, rfl, rfl⟩
  intro k
  unfold fromSet
  dsimp only
  split
  · rename_i h; subst h; exact lookup_del_eq _ _
  · rename_i h; exact lookup_del_ne _ _ _ h

/-- the running invariant of `lastRevision` -/
structure LInv (P : Int → Prop) (mx sec : Int) : Prop where
  mxIn : mx = 0 ∨ P mx
  secIn : sec = 0 ∨ P sec
  nn : 0 ≤ sec
  lt : sec < mx ∨ (mx = 0 ∧ sec = 0)
  all : ∀ v, P v → v = mx ∨ v ≤ sec

theorem lastRevision_inv (sets : List MSet) : ∀ (P : Int → Prop) (mx sec : Int), LInv P mx sec → UniqueRev sets →
    (∀ s ∈ sets, ∀ r, 0 < r → HasRev s.annotations r → ¬ P r) →
    ∃ mx', LInv (fun v => P v ∨ ∃ s ∈ sets, revision s.annotations = some v) mx' (lastRevision (sets.map (·.annotations)) mx sec) := by
  induction sets with
  | nil =>
    intro P mx sec h _ _
    refine ⟨mx, ?_⟩
    simp only [List.map_nil, lastRevision]
    exact ⟨h.mxIn.imp id Or.inl, h.secIn.imp id Or.inl, h.nn, h.lt, fun v hv => by simpa using h.all v (by simpa using hv)⟩
  | cons a rest ih =>
    intro P mx sec h hu hd
    unfold UniqueRev at hu
    rw [List.pairwise_cons] at hu
    have fin : ∀ (mx1 sec1 : Int) (v : Int), revision a.annotations = some v → LInv (fun w => P w ∨ w = v) mx1 sec1 →
        ∃ mx', LInv (fun w => P w ∨ ∃ s ∈ a :: rest, revision s.annotations = some w) mx' (lastRevision (rest.map (·.annotations)) mx1 sec1) := by
      intro mx1 sec1 v hv hi
      obtain ⟨mx', h'⟩ := ih _ mx1 sec1 hi hu.2 (by
        intro s hs r hp hr hc
        rcases hc with hc | rfl
        · exact hd s (by simp [hs]) r hp hr hc
        · exact hu.1 s hs r hp (hasRev_of_revision hv (by omega)) hr)
      refine ⟨mx', ?_⟩
      have conv : ∀ w, ((P w ∨ w = v) ∨ ∃ s ∈ rest, revision s.annotations = some w) ↔ (P w ∨ ∃ s ∈ a :: rest, revision s.annotations = some w) := by
        intro w
        constructor
        · rintro ((h | rfl) | ⟨s, hs, h⟩)
          · exact Or.inl h
          · exact Or.inr ⟨a, by simp, hv⟩
          · exact Or.inr ⟨s, by simp [hs], h⟩
        · rintro (h | ⟨s, hs, h⟩)
          · exact Or.inl (Or.inl h)
          · rcases List.mem_cons.1 hs with rfl | hs
            · rw [hv] at h; simp at h; exact Or.inl (Or.inr h.symm)
            · exact Or.inr ⟨s, hs, h⟩
      exact ⟨h'.mxIn.imp id (conv _).1, h'.secIn.imp id (conv _).1, h'.nn, h'.lt, fun w hw => h'.all w ((conv w).2 hw)⟩
    simp only [List.map_cons]
    rw [lastRevision]
    cases hv : revision a.annotations with
    | none =>
      dsimp only
      obtain ⟨mx', h'⟩ := ih P mx sec h hu.2 (fun s hs => hd s (by simp [hs]))
      refine ⟨mx', ?_⟩
      have conv : ∀ w, (P w ∨ ∃ s ∈ rest, revision s.annotations = some w) ↔ (P w ∨ ∃ s ∈ a :: rest, revision s.annotations = some w) := by
        intro w
        simp [hv]
      exact ⟨h'.mxIn.imp id (conv _).1, h'.secIn.imp id (conv _).1, h'.nn, h'.lt, fun w hw => h'.all w ((conv w).2 hw)⟩
    | some v =>
      dsimp only
      have hne : 0 < v → ¬ P v := fun hp => hd a (by simp) v hp (hasRev_of_revision hv (by omega))
      have hlt := h.lt
      have hnn := h.nn
      split
      · rename_i hge
        refine fin v mx v hv ⟨Or.inr (Or.inr rfl), h.mxIn.imp id Or.inl, by omega, ?_, ?_⟩
        · by_cases h0 : v = 0
          · omega
          · have : v ≠ mx := by
              rintro rfl
              rcases h.mxIn with h1 | h1
              · exact h0 h1
              · exact hne (by omega) h1
            omega
        · intro w hw
          rcases hw with hw | rfl
          · rcases h.all w hw with h1 | h1 <;> right <;> omega
          · exact Or.inl rfl
      · split
        · rename_i h1 h2
          refine fin mx v v hv ⟨h.mxIn.imp id Or.inl, Or.inr (Or.inr rfl), by omega, by omega, ?_⟩
          intro w hw
          rcases hw with hw | rfl
          · rcases h.all w hw with h1 | h1
            · exact Or.inl h1
            · right; omega
          · right; omega
        · rename_i h1 h2
          refine fin mx sec v hv ⟨h.mxIn.imp id Or.inl, h.secIn.imp id Or.inl, h.nn, h.lt, ?_⟩
          intro w hw
          rcases hw with hw | rfl
          · exact h.all w hw
          · right; omega

theorem lastRevision_spec (sets : List MSet) (hu : UniqueRev sets) :
    (lastRevision (sets.map (·.annotations)) 0 0 = 0 ∧ ∀ r, ¬ SecondGreatest sets r) ∨
    SecondGreatest sets (lastRevision (sets.map (·.annotations)) 0 0) := by
  obtain ⟨mx, h⟩ := lastRevision_inv sets (fun _ => False) 0 0 ⟨Or.inl rfl, Or.inl rfl, by omega, Or.inr ⟨rfl, rfl⟩, by simp⟩ hu (by simp)
  generalize lastRevision (sets.map (·.annotations)) 0 0 = sec at h
  by_cases h0 : sec = 0
  · refine Or.inl ⟨h0, ?_⟩
    rintro r ⟨hp, ⟨s, hs, hr⟩, t, ht, m, hm, hlt, _⟩
    have a1 := h.all r (Or.inr ⟨s, hs, revision_of_hasRev hr⟩)
    have a2 := h.all m (Or.inr ⟨t, ht, revision_of_hasRev hm⟩)
    omega
  · have hnn := h.nn
    rcases h.secIn with h1 | h1 | ⟨s, hs, h1⟩
    · exact absurd h1 h0
    · exact h1.elim
    rcases h.mxIn with h2 | h2 | ⟨t, ht, h2⟩
    · have := h.lt; omega
    · exact h2.elim
    have hlt := h.lt
    refine Or.inr ⟨by omega, ⟨s, hs, hasRev_of_revision h1 h0⟩, t, ht, mx, hasRev_of_revision h2 (by omega), by omega, ?_⟩
    intro u hu v hv
    exact h.all v (Or.inr ⟨u, hu, revision_of_hasRev hv⟩)

/-! ## C17 -/

/-- **C17** (request cleared): whatever the revision and the machine sets, the update that ends a rollback run clears the request. -/
theorem C17_request_cleared (d : Dep) (rv : Int) (sets : List MSet) : (rollback d rv sets).rollbackTo = none := by
  have h : ∀ s, (rollbackToTemplate d s).rollbackTo = none := by
    intro s
    unfold rollbackToTemplate
    cases equalIgnoreHash d.template s.template <;> rfl
  unfold rollback
  dsimp only
  generalize (if rv = 0 then lastRevision (sets.map (·.annotations)) 0 0 else rv) = x
  by_cases hx : rv = 0 ∧ x = 0
  · simp [hx]
  · rw [if_neg hx]
    cases findRevision x sets with
    | none => rfl
    | some s => exact h s

/-- **C17** (unknown revision): nothing but the request changes. -/
theorem C17_unknown_revision (d : Dep) (rv : Int) (sets : List MSet) (h0 : rv ≠ 0) (h : ∀ s ∈ sets, ¬ HasRev s.annotations rv) :
    (rollback d rv sets).template = d.template ∧ (rollback d rv sets).annotations = d.annotations := by
  unfold rollback
  simp only [h0, false_and, if_false]
  cases hf : findRevision rv sets with
  | none => exact ⟨rfl, rfl⟩
  | some s =>
    obtain ⟨h1, h2⟩ := findRevision_some rv sets s hf
    exact absurd (hasRev_of_revision h2 h0) (h s h1)

/-- **C17** (known revision): the template becomes that of the machine set with the requested revision, without the hash label, if
the two differ, and stays as it is otherwise. -/
theorem C17_rollback_partial (d : Dep) (rv : Int) (hp : 0 < rv) (sets : List MSet) (hu : UniqueRev sets) (s : MSet) (hs : s ∈ sets)
    (hr : HasRev s.annotations rv) (hn : Normal s.template d.template) (hlen : d.template.labels.length ≠ s.template.labels.length) :
    (¬ SameTemplate d.template s.template → TemplateOf s (rollback d rv sets).template) ∧
    (SameTemplate d.template s.template → (rollback d rv sets).template = d.template ∧ (rollback d rv sets).annotations = d.annotations) := by
  have hz : rv ≠ 0 := by omega
  unfold rollback
  simp only [hz, false_and, if_false]
  rw [findRevision_eq rv hp sets hu s hs hr]
  dsimp only
  unfold rollbackToTemplate
  have he := C16_deployment_first_partial s.template d.template hn hlen
  constructor
  · intro h
    rw [if_neg (fun hc => h (he.1 hc))]
    exact fromSet_spec s
  · intro h
    rw [if_pos (he.2 h)]
    exact ⟨rfl, rfl⟩

/-- **C17** (revision 0): means the second greatest revision; without one nothing but the request changes. -/
theorem C17_last_revision (d : Dep) (sets : List MSet) (hu : UniqueRev sets) :
    (∀ r, SecondGreatest sets r → rollback d 0 sets = rollback d r sets) ∧
    ((∀ r, ¬ SecondGreatest sets r) → (rollback d 0 sets).template = d.template ∧ (rollback d 0 sets).annotations = d.annotations) := by
  rcases lastRevision_spec sets hu with ⟨h1, h2⟩ | h
  · refine ⟨fun r hr => absurd hr (h2 r), fun _ => ?_⟩
    unfold rollback
    simp [h1]
  · refine ⟨fun r hr => ?_, fun hc => absurd h (hc _)⟩
    have e : lastRevision (sets.map (·.annotations)) 0 0 = r := by
      obtain ⟨p1, ⟨s1, m1, r1⟩, t1, tm1, x1, hx1, l1, a1⟩ := h
      obtain ⟨p2, ⟨s2, m2, r2⟩, t2, tm2, x2, hx2, l2, a2⟩ := hr
      have c1 := a1 s2 m2 _ r2
      have c2 := a2 s1 m1 _ r1
      have c3 := a1 t2 tm2 _ hx2
      have c4 := a2 t1 tm1 _ hx1
      omega
    have hr0 : r ≠ 0 := by have := hr.1; omega
    unfold rollback
    simp only [if_true, e, hr0, and_false, if_false]

theorem skipped_iff (k : String) : skipped k = true ↔ Reserved k := by
  unfold skipped Reserved revKey histKey
  rw [List.contains_iff_mem]

theorem fold_set (l : SMap) : ∀ (acc : SMap) (k : String), IsMap l →
    List.lookup k (l.foldl (fun (acc : SMap) e => if skipped e.1 then acc else acc.set e.1 e.2) acc)
      = if skipped k = true then List.lookup k acc else (List.lookup k l).or (List.lookup k acc) := by
  induction l with
  | nil => intro acc k _; simp
  | cons e l ih =>
    obtain ⟨a, b⟩ := e
    intro acc k hm
    unfold IsMap at hm
    simp only [List.map_cons, List.nodup_cons] at hm
    rw [List.foldl_cons, ih _ _ hm.2]
    have hnl : List.lookup a l = none := by
      cases h : List.lookup a l with
      | none => rfl
      | some v => exact absurd (List.mem_map.2 ⟨_, mem_of_lookup _ _ _ h, rfl⟩) hm.1
    by_cases hk : k = a
    · subst hk
      by_cases hs : skipped k = true
      · simp [hs]
      · simp [hs, hnl]
    · have h1 : (k == a) = false := by simpa using hk
      by_cases hs : skipped a = true
      · simp only [hs, if_true, List.lookup, h1]
      · simp only [hs, if_false, List.lookup, h1, Bool.false_eq_true]
        rw [lookup_set_ne _ _ _ _ hk]

theorem lookup_filter_skipped (m : SMap) (k : String) :
    List.lookup k (m.filter fun e => skipped e.1) = if skipped k = true then List.lookup k m else none := by
  induction m with
  | nil => simp
  | cons e m ih =>
    obtain ⟨a, b⟩ := e
    by_cases hs : skipped a = true
    · simp only [List.filter_cons, hs, if_true, List.lookup]
      by_cases hk : k = a
      · subst hk; simp [hs]
      · have h1 : (k == a) = false := by simpa using hk
        simp only [h1, ih]
    · simp only [List.filter_cons, hs, if_false, List.lookup, Bool.false_eq_true, ih]
      by_cases hk : k = a
      · subst hk; simp [hs]
      · have h1 : (k == a) = false := by simpa using hk
        simp only [h1]

/-- On rollback the deployment takes over exactly the machine set's annotations, except the controller's own ones, which stay. -/
theorem C17_annotations (d : Dep) (rv : Int) (hp : 0 < rv) (sets : List MSet) (hu : UniqueRev sets) (s : MSet) (hs : s ∈ sets)
    (hr : HasRev s.annotations rv) (hm : IsMap s.annotations) (hdiff : equalIgnoreHash d.template s.template = false) (k : String) :
    (Reserved k → List.lookup k (rollback d rv sets).annotations = List.lookup k d.annotations) ∧
    (¬ Reserved k → List.lookup k (rollback d rv sets).annotations = List.lookup k s.annotations) := by
  have hz : rv ≠ 0 := by omega
  unfold rollback
  simp only [hz, false_and, if_false]
  rw [findRevision_eq rv hp sets hu s hs hr]
  dsimp only
  unfold rollbackToTemplate annotationsFromSet
  rw [hdiff]
  simp only [Bool.false_eq_true, if_false]
  rw [fold_set _ _ _ hm, lookup_filter_skipped, ← skipped_iff]
  constructor <;> intro h <;> simp [h]

/-- After a rollback the machine set that was rolled back to carries the deployment's template again (so the next run makes it the
current one instead of creating a new set). -/
theorem C17_set_becomes_current (s : MSet) (hm : IsMap s.template.labels) : equalIgnoreHash s.template (fromSet s.template) = true := by
  have h1 : IsMap (fromSet s.template).labels := (List.filter_sublist.map _).nodup hm
  refine (C16_same_recognised _ _ hm h1 ⟨?_, rfl⟩).1
  intro k hk
  exact (lookup_del_ne _ _ _ hk).symm

/-- The full statement fails: rolling back a deployment that has gained one label leaves the template as it is, although it differs. -/
theorem C17_added_label_false : ∃ (d : Dep) (s : MSet), Normal s.template d.template ∧ HasRev s.annotations 1 ∧
    ¬ SameTemplate d.template s.template ∧ (rollback d 1 [s]).template = d.template := by
  refine ⟨{ template := { labels := [("app", "a"), ("tier", "gold")] }, rollbackTo := some 1 },
    { name := "s1", template := { labels := [("app", "a"), ("machine-template-hash", "7")] }, annotations := [("deployment.kubernetes.io/revision", "1")] },
    ⟨by unfold IsMap; decide, by unfold IsMap; decide, by decide, by decide, ?_, ?_⟩, ⟨"1", by decide +kernel, by decide +kernel⟩, ?_, by decide +kernel⟩
  · intro k v h hv
    have := mem_of_lookup _ _ _ h
    subst hv
    simp at this
  · intro k v h hv
    have := mem_of_lookup _ _ _ h
    subst hv
    simp at this
  · intro h
    have := h.1 "tier" (by decide)
    revert this
    decide

/-- Rolling back never restores a node template, machine configuration or class kind that is the only difference. -/
theorem C17_in_place_fields_not_restored_false : ∃ (d : Dep) (s : MSet), HasRev s.annotations 1 ∧
    s.template.nodeTemplate ≠ d.template.nodeTemplate ∧ (rollback d 1 [s]).template = d.template := by
  refine ⟨{ template := { nodeTemplate := "new" }, rollbackTo := some 1 },
    { name := "s1", template := { nodeTemplate := "old" }, annotations := [("deployment.kubernetes.io/revision", "1")] },
    ⟨"1", by decide +kernel, by decide +kernel⟩, by decide, by decide +kernel⟩

/-- C17: A rollback whose reads or whose update fail leaves the deployment and the request as they are, to be tried again; otherwise the request is done with. -/
theorem C17_all_or_nothing (d : Dep) (rv : Int) (sets : List MSet) (listOk updateOk : Bool) :
    ((listOk = false ∨ updateOk = false) → run d rv sets listOk updateOk = d) ∧
    (listOk = true → updateOk = true → (run d rv sets listOk updateOk).rollbackTo = none ∧ run d rv sets listOk updateOk = rollback d rv sets) := by
  constructor
  · rintro (rfl | rfl)
    · rfl
    · cases listOk <;> rfl
  · rintro rfl rfl
    exact ⟨C17_request_cleared d rv sets, rfl⟩

/-! ## C18 -/

/-- may be deleted: wants none, has none, the controller of the set has seen its latest version, not being deleted -/
def Idle (s : OldSet) : Prop := s.spec = 0 ∧ s.status = 0 ∧ s.generation ≤ s.observed ∧ s.deleting = false

/-- what `sort.Sort(MachineSetsByCreationTimestamp(..))` may do -/
def Sorts (sort : List OldSet → List OldSet) : Prop :=
  ∀ l, (sort l).Perm l ∧ (sort l).Pairwise (fun a b => a.creation ≤ b.creation)

theorem loop_spec (fails : OldSet → Bool) : ∀ (n : Nat) (l : List OldSet),
    (cleanupLoop fails n l).deleted.Sublist (l.take n) ∧ (∀ s ∈ (cleanupLoop fails n l).deleted, Idle s) ∧
    (n ≤ l.length → (cleanupLoop fails n l).panicked = false) := by
  intro n
  induction n with
  | zero => intro l; simp [cleanupLoop]
  | succ n ih =>
    intro l
    cases l with
    | nil => simp [cleanupLoop]
    | cons s rest =>
      obtain ⟨h1, h2, h3⟩ := ih rest
      rw [cleanupLoop]
      split
      · refine ⟨?_, h2, fun h => h3 (by simpa using h)⟩
        rw [List.take_succ_cons]
        exact h1.cons _
      · rename_i hc
        have hi : Idle s := by
          unfold Idle
          cases hd : s.deleting <;> simp [hd] at hc ⊢
          exact ⟨hc.2.1, hc.1, hc.2.2⟩
        split
        · refine ⟨by simp, by simpa using hi, fun _ => rfl⟩
        · dsimp only
          refine ⟨?_, ?_, fun h => h3 (by simpa using h)⟩
          · rw [List.take_succ_cons]; exact h1.cons_cons _
          · intro x hx
            rcases List.mem_cons.1 hx with rfl | hx
            · exact hi
            · exact h2 x hx

/-- all idle sets among the first `n` are deleted when nothing fails -/
theorem loop_complete (fails : OldSet → Bool) (hf : ∀ s, fails s = false) : ∀ (n : Nat) (l : List OldSet) (s : OldSet), s ∈ l.take n → Idle s →
    s ∈ (cleanupLoop fails n l).deleted := by
  intro n
  induction n with
  | zero => intro l s hs; simp at hs
  | succ n ih =>
    intro l s hs hi
    cases l with
    | nil => simp at hs
    | cons x rest =>
      rw [List.take_succ_cons] at hs
      rw [cleanupLoop]
      split
      · rename_i hc
        rcases List.mem_cons.1 hs with rfl | hs
        · obtain ⟨h1, h2, h3, h4⟩ := hi
          rw [h4] at hc
          simp at hc
          omega
        · exact ih rest s hs hi
      · simp only [hf, Bool.false_eq_true, if_false]
        rcases List.mem_cons.1 hs with rfl | hs
        · simp
        · exact List.mem_cons_of_mem _ (ih rest s hs hi)

/-- **C18**: only idle sets are deleted; there is a history limit; no more sets are deleted than exceed it, and
for every deleted set there are `limit` surviving sets that are not older. This holds for negative limits too, except that the
controller may then panic (witness below). -/
theorem C18_cleanup (sort : List OldSet → List OldSet) (hs : Sorts sort) (fails : OldSet → Bool) (limit : Option Int) (old : List OldSet)
    (hnd : old.Nodup) :
    let c := cleanup sort fails limit old
    (∀ s ∈ c.deleted, s ∈ old ∧ Idle s) ∧
    ((∀ l, limit = some l → 0 ≤ l) → c.panicked = false) ∧
    (c.deleted ≠ [] → ∃ l : Int, limit = some l ∧ (c.deleted.length : Int) + l ≤ (old.filter fun s => !s.deleting).length) ∧
    (∀ s ∈ c.deleted, ∃ (l : Int) (newer : List OldSet), limit = some l ∧ newer.Sublist (sort (old.filter fun s => !s.deleting)) ∧ (newer.length : Int) = max l 0 ∧
      ∀ x ∈ newer, s.creation ≤ x.creation ∧ x ∉ c.deleted) := by
  intro c
  have hc0 : c = cleanup sort fails limit old := rfl
  clear_value c
  unfold cleanup at hc0
  cases hl : limit with
  | none =>
    have hc : c = ⟨[], false⟩ := by rw [hc0, hl]
    rw [hc]
    simp
  | some l =>
    simp only [hl] at hc0
    obtain ⟨hp, hsrt⟩ := hs (old.filter fun s => !s.deleting)
    have hlen := hp.length_eq
    by_cases hd : ((old.filter fun s => !s.deleting).length : Int) - l ≤ 0
    · have hc : c = ⟨[], false⟩ := by simp only [hc0, hd, if_true]
      rw [hc]
      simp
    · have hc : c = cleanupLoop fails (((old.filter fun s => !s.deleting).length : Int) - l).toNat (sort (old.filter fun s => !s.deleting)) := by
        simp only [hc0, hd, if_false]
      generalize hn : (((old.filter fun s => !s.deleting).length : Int) - l).toNat = n at hc
      obtain ⟨h1, h2, h3⟩ := loop_spec fails n (sort (old.filter fun s => !s.deleting))
      rw [hc]
      have hle := h1.length_le
      rw [List.length_take] at hle
      refine ⟨?_, fun hnn => h3 (by have := hnn l rfl; omega), ?_, ?_⟩
      · intro s hs'
        have := hp.mem_iff.1 (List.mem_of_mem_take (h1.subset hs'))
        exact ⟨(List.mem_filter.1 this).1, h2 s hs'⟩
      · intro _
        exact ⟨l, rfl, by omega⟩
      · intro s hs'
        refine ⟨l, (sort (old.filter fun s => !s.deleting)).drop n, rfl, List.drop_sublist _ _, by rw [List.length_drop]; omega, ?_⟩
        intro x hx
        have htd := List.take_append_drop n (sort (old.filter fun s => !s.deleting))
        rw [← htd] at hsrt
        have hsm := h1.subset hs'
        refine ⟨(List.pairwise_append.1 hsrt).2.2 s hsm x hx, ?_⟩
        intro hc'
        have hnd' := hp.nodup_iff.2 (hnd.filter _)
        rw [← htd] at hnd'
        exact (List.nodup_append.1 hnd').2.2 x (h1.subset hc') x hx rfl

/-- **C18**, the other direction: when no call fails, every idle set among the oldest `n - limit` is deleted. -/
theorem C18_cleanup_complete (sort : List OldSet → List OldSet) (fails : OldSet → Bool) (hf : ∀ s, fails s = false) (l : Int) (old : List OldSet) (s : OldSet)
    (hm : s ∈ (sort (old.filter fun s => !s.deleting)).take (((old.filter fun s => !s.deleting).length : Int) - l).toNat) (hi : Idle s) :
    s ∈ (cleanup sort fails (some l) old).deleted := by
  unfold cleanup
  dsimp only
  split
  · rename_i h
    have : (((old.filter fun s => !s.deleting).length : Int) - l).toNat = 0 := by omega
    rw [this] at hm
    simp at hm
  · exact loop_complete fails hf _ _ s hm hi

/-- A negative history limit, which validation accepts, makes the controller panic as soon as the idle sets are gone through. -/
theorem C18_negative_limit_panics_false : ∃ old : List OldSet, (cleanup id (fun _ => false) (some (-1)) old).panicked = true :=
  ⟨[⟨"a", 0, 0, 1, 1, false, 0⟩], by decide⟩

/-! ## Concrete cases -/

example : (rollback { template := { body := "new" }, rollbackTo := some 0 } 0
    [{ name := "s1", template := { body := "old" }, annotations := [("deployment.kubernetes.io/revision", "1")] },
     { name := "s2", template := { body := "new" }, annotations := [("deployment.kubernetes.io/revision", "2")] }]).template.body = "old" := by
  decide +kernel

example : UniqueRev [{ name := "s1", annotations := [("deployment.kubernetes.io/revision", "1")] },
    { name := "s2", annotations := [("deployment.kubernetes.io/revision", "2")] }] := by
  unfold UniqueRev
  simp only [List.pairwise_cons, List.mem_cons, List.not_mem_nil, or_false, forall_eq, List.Pairwise.nil, and_true]
  refine ⟨?_, by simp⟩
  intro r _ h1 h2
  have e1 := revision_of_hasRev h1
  have e2 := revision_of_hasRev h2
  rw [← e2] at e1
  revert e1
  decide +kernel

example : cleanup id (fun _ => false) (some 1) [⟨"a", 0, 0, 1, 1, false, 0⟩, ⟨"b", 1, 1, 1, 1, false, 1⟩, ⟨"c", 0, 0, 1, 1, false, 2⟩]
    = ⟨[⟨"a", 0, 0, 1, 1, false, 0⟩], false⟩ := by decide

end MCM.Rollback
