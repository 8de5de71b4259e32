import Verif.Model.Taints
/-!
C42: taint edits act on exactly one key and effect.
-/
namespace MCM.Taints

/-- the same key and effect -/
def Same (t u : Taint) : Prop := t.key = u.key ∧ t.effect = u.effect

instance (t u : Taint) : Decidable (Same t u) := by unfold Same; infer_instance

theorem matches_iff (t u : Taint) : t.matches u = true ↔ Same t u := by simp [Taint.matches, Same]

theorem matches_false (t u : Taint) : t.matches u = false ↔ ¬ Same t u := by
  rw [← matches_iff]; simp

/-- what Kubernetes requires of the taints of a node: at most one per key and effect -/
def Valid (l : List Taint) : Prop := l.Pairwise fun t u => ¬ Same t u

theorem same_self (t : Taint) : Same t t := ⟨rfl, rfl⟩
theorem same_symm {t u : Taint} (h : Same t u) : Same u t := ⟨h.1.symm, h.2.symm⟩
theorem same_trans {t u v : Taint} (h : Same t u) (h' : Same u v) : Same t v := ⟨h.1.trans h'.1, h.2.trans h'.2⟩

theorem addLoop_spec (t : Taint) : ∀ (l acc : List Taint) (b : Bool),
    (addLoop t l acc b = none ↔ t ∈ l) ∧
    ∀ r, addLoop t l acc b = some r → r.1 = acc ++ l.map (fun u => if Same t u then t else u) ∧ (r.2 = true ↔ b = true ∨ ∃ u ∈ l, Same t u)
  | [], acc, b => by
    rw [addLoop]
    refine ⟨by simp, fun r h => ?_⟩
    cases h
    simp
  | u :: l, acc, b => by
    rw [addLoop]
    by_cases hm : Same t u
    · rw [if_pos ((matches_iff t u).2 hm)]
      by_cases he : t = u
      · rw [if_pos he]
        refine ⟨⟨fun _ => he ▸ List.mem_cons_self, fun _ => rfl⟩, fun r h => (nomatch h)⟩
      · rw [if_neg he]
        obtain ⟨h1, h2⟩ := addLoop_spec t l (acc ++ [t]) true
        refine ⟨h1.trans ⟨List.mem_cons_of_mem _, fun h => ?_⟩, fun r h => ?_⟩
        · rcases List.mem_cons.1 h with h | h
          · exact absurd h he
          · exact h
        · obtain ⟨a, b'⟩ := h2 r h
          refine ⟨by rw [a]; simp [hm], ⟨fun _ => .inr ⟨u, List.mem_cons_self, hm⟩, fun _ => b'.2 (.inl rfl)⟩⟩
    · rw [if_neg (by rw [(matches_false t u).2 hm]; simp)]
      obtain ⟨h1, h2⟩ := addLoop_spec t l (acc ++ [u]) b
      refine ⟨h1.trans ⟨List.mem_cons_of_mem _, fun h => ?_⟩, fun r h => ?_⟩
      · rcases List.mem_cons.1 h with h | h
        · exact absurd ⟨by rw [h], by rw [h]⟩ hm
        · exact h
      · obtain ⟨a, b'⟩ := h2 r h
        refine ⟨by rw [a]; simp [hm], b'.trans ⟨fun h => ?_, fun h => ?_⟩⟩
        · rcases h with h | ⟨v, hv, hs⟩
          · exact .inl h
          · exact .inr ⟨v, List.mem_cons_of_mem _ hv, hs⟩
        · rcases h with h | ⟨v, hv, hs⟩
          · exact .inl h
          · rcases List.mem_cons.1 hv with rfl | hv
            · exact absurd hs hm
            · exact .inr ⟨v, hv, hs⟩

theorem map_filter_ne (t : Taint) : ∀ l : List Taint,
    (l.map fun u => if Same t u then t else u).filter (fun u => ¬ Same t u) = l.filter fun u => ¬ Same t u
  | [] => rfl
  | u :: l => by
    rw [List.map_cons, List.filter_cons, List.filter_cons, map_filter_ne t l]
    by_cases h : Same t u
    · simp [h, same_self]
    · simp [h]

/-- at most one taint per key and effect, counted -/
theorem valid_filter {l : List Taint} (h : Valid l) (t : Taint) : ∀ u ∈ l, Same t u → l.filter (fun v => Same t v) = [u] := by
  induction l with
  | nil => intro u hu; cases hu
  | cons a l ih =>
    intro u hu hs
    rw [Valid, List.pairwise_cons] at h
    rcases List.mem_cons.1 hu with rfl | hu
    · rw [List.filter_cons, if_pos (by simpa using hs)]
      congr 1
      rw [List.filter_eq_nil_iff]
      intro v hv
      simpa using fun hs' => h.1 v hv (same_trans (same_symm hs) hs')
    · have ha : ¬ Same t a := fun hs' => h.1 u hu (same_trans (same_symm hs') hs)
      rw [List.filter_cons, if_neg (by simpa using ha)]
      exact ih h.2 u hu hs

theorem map_filter_eq (t : Taint) : ∀ l : List Taint,
    (l.map fun u => if Same t u then t else u).filter (fun u => Same t u) = (l.filter fun u => Same t u).map fun _ => t
  | [] => rfl
  | u :: l => by
    rw [List.map_cons, List.filter_cons, List.filter_cons, map_filter_eq t l]
    by_cases h : Same t u
    · simp [h, same_self]
    · simp [h]

/-- C42: After adding or updating a taint the node has exactly this one for its key and effect. -/
theorem C42_add_exactly_one (l : List Taint) (h : Valid l) (t : Taint) : (addOrUpdate l t).1.filter (fun u => Same t u) = [t] := by
  obtain ⟨h1, h2⟩ := addLoop_spec t l [] false
  unfold addOrUpdate
  cases he : addLoop t l [] false with
  | none => exact valid_filter h t t (h1.1 he) ⟨rfl, rfl⟩
  | some r =>
    obtain ⟨a, b⟩ := h2 r he
    rw [List.nil_append] at a
    obtain ⟨r, up⟩ := r
    dsimp only at a b ⊢
    cases up with
    | true =>
      rcases b.1 rfl with hb | ⟨u, hu, hs⟩
      · cases hb
      · rw [if_pos rfl, a, map_filter_eq, valid_filter h t u hu hs]
        rfl
    | false =>
      have hno : ∀ u ∈ l, ¬ Same t u := fun u hu hs => by
        have := b.2 (.inr ⟨u, hu, hs⟩)
        cases this
      rw [if_neg (by simp), List.filter_append, a, map_filter_eq, List.filter_eq_nil_iff.2 (by simpa using hno)]
      simp [Same]

/-- C42: All other taints stay, in order. -/
theorem C42_add_others_kept (l : List Taint) (t : Taint) :
    (addOrUpdate l t).1.filter (fun u => ¬ Same t u) = l.filter fun u => ¬ Same t u := by
  obtain ⟨h1, h2⟩ := addLoop_spec t l [] false
  unfold addOrUpdate
  cases he : addLoop t l [] false with
  | none => rfl
  | some r =>
    obtain ⟨a, b⟩ := h2 r he
    rw [List.nil_append] at a
    dsimp only
    split
    · rw [a, map_filter_ne]
    · rw [List.filter_append, a, map_filter_ne]
      simp [Same]

/-- C42: The flag is set exactly if the taints changed, which is exactly if the given one was not there already. -/
theorem C42_add_flag (l : List Taint) (h : Valid l) (t : Taint) :
    ((addOrUpdate l t).2 = true ↔ (addOrUpdate l t).1 ≠ l) ∧ ((addOrUpdate l t).2 = true ↔ t ∉ l) := by
  have hmem : t ∈ (addOrUpdate l t).1 := by
    have : t ∈ (addOrUpdate l t).1.filter (fun u => Same t u) := by rw [C42_add_exactly_one l h t]; exact List.mem_cons_self
    exact (List.mem_filter.1 this).1
  have hflag : (addOrUpdate l t).2 = true ↔ t ∉ l := by
    obtain ⟨h1, h2⟩ := addLoop_spec t l [] false
    unfold addOrUpdate
    cases he : addLoop t l [] false with
    | none => simp [h1.1 he]
    | some r =>
      simp only [true_iff]
      intro hm
      rw [h1.2 hm] at he
      cases he
  refine ⟨hflag.trans ⟨fun hn he => hn (he ▸ hmem), fun hne hm => hne ?_⟩, hflag⟩
  unfold addOrUpdate
  rw [(addLoop_spec t l [] false).1.2 hm]

theorem delete_spec : ∀ (l : List Taint) (t : Taint), (delete l t).1 = l.filter (fun u => ¬ Same t u) ∧ ((delete l t).2 = true ↔ ∃ u ∈ l, Same t u)
  | [], t => by simp [delete]
  | u :: l, t => by
    obtain ⟨h1, h2⟩ := delete_spec l t
    rw [delete]
    by_cases hm : Same t u
    · rw [if_pos ((matches_iff t u).2 hm)]
      refine ⟨by rw [h1]; simp [hm], by simp [hm]⟩
    · rw [if_neg (by rw [(matches_false t u).2 hm]; simp)]
      refine ⟨by rw [h1]; simp [hm], by rw [h2]; simp [hm]⟩

theorem exists_iff (l : List Taint) (t : Taint) : exists_ l t = true ↔ ∃ u ∈ l, Same t u := by
  unfold exists_
  rw [List.any_eq_true]
  exact ⟨fun ⟨u, hu, h⟩ => ⟨u, hu, same_symm ((matches_iff u t).1 h)⟩, fun ⟨u, hu, h⟩ => ⟨u, hu, (matches_iff u t).2 (same_symm h)⟩⟩

/-- C42: Removing a taint removes all with its key and effect and nothing else; the flag is set exactly if there was one. -/
theorem C42_remove (l : List Taint) (t : Taint) :
    (remove l t).1 = l.filter (fun u => ¬ Same t u) ∧ ((remove l t).2 = true ↔ ∃ u ∈ l, Same t u) ∧ ((remove l t).2 = true ↔ (remove l t).1 ≠ l) := by
  have hmain : (remove l t).1 = l.filter (fun u => ¬ Same t u) ∧ ((remove l t).2 = true ↔ ∃ u ∈ l, Same t u) := by
    unfold remove
    split
    · rename_i he
      subst he
      simp
    · split
      · rename_i he
        have hno : ¬ ∃ u ∈ l, Same t u := fun h => he ((exists_iff l t).2 h)
        refine ⟨?_, by simpa using hno⟩
        symm
        rw [List.filter_eq_self]
        intro u hu
        simpa using fun hs => hno ⟨u, hu, hs⟩
      · rename_i he
        exact ⟨(delete_spec l t).1, by simpa using (exists_iff l t).1 (Decidable.not_not.1 he)⟩
  refine ⟨hmain.1, hmain.2, hmain.2.trans ?_⟩
  rw [hmain.1]
  constructor
  · rintro ⟨u, hu, hs⟩ he
    rw [List.filter_eq_self] at he
    have := he u hu
    simp [hs] at this
  · intro hne
    apply Decidable.byContradiction
    intro hno
    refine hne (List.filter_eq_self.2 fun u hu => ?_)
    simpa using fun hs => hno ⟨u, hu, hs⟩

/-- C42: The difference of two lists of taints, by key and effect. -/
theorem C42_diff (t1 t2 : List Taint) (t : Taint) :
    (t ∈ (diff t1 t2).1 ↔ t ∈ t1 ∧ ∀ u ∈ t2, ¬ Same t u) ∧ (t ∈ (diff t1 t2).2 ↔ t ∈ t2 ∧ ∀ u ∈ t1, ¬ Same t u) := by
  unfold diff
  simp only [List.mem_filter, decide_eq_true_eq, exists_iff]
  constructor <;> exact and_congr_right fun _ => by simp

theorem valid_add (l : List Taint) (h : Valid l) (t : Taint) : Valid (addOrUpdate l t).1 := by
  obtain ⟨h1, h2⟩ := addLoop_spec t l [] false
  have hmap : Valid (l.map fun u => if Same t u then t else u) := by
    unfold Valid
    rw [List.pairwise_map]
    refine List.Pairwise.imp ?_ h
    intro a b hab
    by_cases ha : Same t a <;> by_cases hb : Same t b
    · exact absurd (same_trans (same_symm ha) hb) hab
    · rw [if_pos ha, if_neg hb]; exact hb
    · rw [if_neg ha, if_pos hb]; exact fun hs => ha (same_symm hs)
    · rw [if_neg ha, if_neg hb]; exact hab
  unfold addOrUpdate
  cases he : addLoop t l [] false with
  | none => exact h
  | some r =>
    obtain ⟨a, b⟩ := h2 r he
    rw [List.nil_append] at a
    dsimp only
    split
    · rw [a]; exact hmap
    · rename_i hup
      have hno : ∀ u ∈ l, ¬ Same t u := fun u hu hs => hup (b.2 (.inr ⟨u, hu, hs⟩))
      unfold Valid
      rw [List.pairwise_append, a]
      refine ⟨hmap, List.pairwise_singleton _ _, fun x hx y hy => ?_⟩
      rw [List.mem_singleton.1 hy]
      obtain ⟨u, hu, rfl⟩ := List.mem_map.1 hx
      rw [if_neg (hno u hu)]
      exact fun hs => hno u hu (same_symm hs)

/-- C42: If adding taints to a node succeeds and what was read was the present state, the node has each of them, provided they have
different keys or effects; and taints that match none of them are untouched, whatever happens. -/
theorem C42_add_on_node (stored : List Taint) (h : Valid stored) (api : Api) (ts : List Taint) (hts : Valid ts) :
    ((addOnNode stored api ts).2 = .done → api.read = some stored → ∀ t ∈ ts, t ∈ (addOnNode stored api ts).1) ∧
    (addOnNode stored api ts).1.filter (fun u => ∀ t ∈ ts, ¬ Same t u) = stored.filter fun u => ∀ t ∈ ts, ¬ Same t u := by
  have hall : ∀ (ts l : List Taint), Valid l → Valid ts →
      (∀ t ∈ ts, t ∈ (addAll l ts).1) ∧ (∀ v, (∀ t ∈ ts, ¬ Same t v) → (v ∈ l → v ∈ (addAll l ts).1)) ∧
      (addAll l ts).1.filter (fun u => ∀ t ∈ ts, ¬ Same t u) = l.filter (fun u => ∀ t ∈ ts, ¬ Same t u) ∧
      ((addAll l ts).2 = false → (addAll l ts).1 = l) := by
    intro ts
    induction ts with
    | nil => intro l _ _; exact ⟨fun t ht => (nomatch ht), fun v _ hv => hv, rfl, fun _ => rfl⟩
    | cons t ts ih =>
      intro l hl hts
      unfold Valid at hts
      rw [List.pairwise_cons] at hts
      obtain ⟨i1, i2, i3, i4⟩ := ih (addOrUpdate l t).1 (valid_add l hl t) hts.2
      have hmem : t ∈ (addOrUpdate l t).1 := by
        have : t ∈ (addOrUpdate l t).1.filter (fun u => Same t u) := by rw [C42_add_exactly_one l hl t]; exact List.mem_cons_self
        exact (List.mem_filter.1 this).1
      rw [addAll]
      dsimp only
      refine ⟨fun v hv => ?_, fun v hv hvl => ?_, ?_, fun hf => ?_⟩
      · rcases List.mem_cons.1 hv with rfl | hv
        · exact i2 v (fun u hu hs => hts.1 u hu (same_symm hs)) hmem
        · exact i1 v hv
      · refine i2 v (fun u hu => hv u (List.mem_cons_of_mem _ hu)) ?_
        have : v ∈ l.filter fun u => ¬ Same t u := List.mem_filter.2 ⟨hvl, by simpa using hv t List.mem_cons_self⟩
        rw [← C42_add_others_kept l t] at this
        exact (List.mem_filter.1 this).1
      · have split : ∀ m : List Taint, m.filter (fun u => decide (∀ t' ∈ t :: ts, ¬ Same t' u)) =
            (m.filter (fun u => decide (∀ t' ∈ ts, ¬ Same t' u))).filter fun u => decide (¬ Same t u) := by
          intro m
          rw [List.filter_filter]
          congr 1
          funext u
          simp
        have swap : ∀ m : List Taint, (m.filter (fun u => decide (∀ t' ∈ ts, ¬ Same t' u))).filter (fun u => decide (¬ Same t u)) =
            (m.filter (fun u => decide (¬ Same t u))).filter fun u => decide (∀ t' ∈ ts, ¬ Same t' u) := by
          intro m
          rw [List.filter_filter, List.filter_filter]
          congr 1
          funext u
          exact Bool.and_comm _ _
        rw [split, i3, swap, C42_add_others_kept, ← swap, ← split]
      · rw [Bool.or_eq_false_iff] at hf
        rw [i4 hf.2]
        apply Decidable.byContradiction
        intro hne
        have := (C42_add_flag l hl t).1.2 hne
        rw [hf.1] at this
        cases this
  unfold addOnNode
  split
  · rename_i he
    subst he
    exact ⟨fun _ _ t ht => (nomatch ht), rfl⟩
  · split
    · exact ⟨fun hd => (nomatch hd), rfl⟩
    · rename_i l hr
      obtain ⟨g1, g2, g3, g4⟩ := hall ts stored h hts
      split
      · rename_i hf
        refine ⟨fun _ he t ht => ?_, rfl⟩
        rw [hr] at he
        cases he
        rw [← g4 hf]
        exact g1 t ht
      · split
        · rename_i hc
          obtain ⟨rfl, _⟩ := hc
          exact ⟨fun _ _ t ht => g1 t ht, g3⟩
        · exact ⟨fun hd => (nomatch hd), rfl⟩

example : addOrUpdate [{ key := "a", effect := "NoSchedule" }, { key := "b", value := "1", effect := "NoExecute" }]
    { key := "b", value := "2", effect := "NoExecute" } =
    ([{ key := "a", effect := "NoSchedule" }, { key := "b", value := "2", effect := "NoExecute" }], true) ∧
    (remove [{ key := "a", effect := "NoSchedule" }, { key := "a", effect := "NoExecute" }] { key := "a", effect := "NoExecute" }).1 =
    [{ key := "a", effect := "NoSchedule" }] := by decide

/-! ### Removing taints of a node -/

theorem removeAll_spec : ∀ (ts l : List Taint), (removeAll l ts).1 = l.filter (fun u => ∀ t ∈ ts, ¬ Same t u) ∧
    ((removeAll l ts).2 = true ↔ ∃ u ∈ l, ∃ t ∈ ts, Same t u)
  | [], l => by
    rw [removeAll]
    exact ⟨(List.filter_eq_self.2 fun u _ => by simp).symm, by simp⟩
  | t :: ts, l => by
    obtain ⟨h1, h2, _⟩ := C42_remove l t
    obtain ⟨i1, i2⟩ := removeAll_spec ts (remove l t).1
    rw [removeAll]
    dsimp only
    constructor
    · rw [i1, h1, List.filter_filter]
      congr 1
      funext u
      rw [Bool.eq_iff_iff]
      simp only [Bool.and_eq_true, decide_eq_true_eq, List.mem_cons, forall_eq_or_imp]
      exact And.comm
    · rw [Bool.or_eq_true, h2, i2, h1]
      constructor
      · rintro (⟨u, hu, hs⟩ | ⟨u, hu, x, hx, hs⟩)
        · exact ⟨u, hu, t, List.mem_cons_self, hs⟩
        · exact ⟨u, (List.mem_filter.1 hu).1, x, List.mem_cons_of_mem _ hx, hs⟩
      · rintro ⟨u, hu, x, hx, hs⟩
        by_cases ht : Same t u
        · exact .inl ⟨u, hu, ht⟩
        · rcases List.mem_cons.1 hx with rfl | hx
          · exact absurd hs ht
          · exact .inr ⟨u, List.mem_filter.2 ⟨hu, by simpa using ht⟩, x, hx, hs⟩

/-- C42: If removing taints off a node succeeds, and what was read and what the caller has given was the present state, the node has exactly its other taints; if the removal fails, the node is
unchanged. -/
theorem C42_remove_off_node (stored : List Taint) (known : Option (List Taint)) (api : Api) (ts : List Taint) :
    ((removeOffNode stored known api ts).2 = .done → api.read = some stored → (∀ k, known = some k → k = stored) →
      (removeOffNode stored known api ts).1 = stored.filter fun u => ∀ t ∈ ts, ¬ Same t u) ∧
    ((removeOffNode stored known api ts).2 = .failed → (removeOffNode stored known api ts).1 = stored) ∧
    (removeOffNode stored known api ts).1.filter (fun u => ∀ t ∈ ts, ¬ Same t u) = stored.filter fun u => ∀ t ∈ ts, ¬ Same t u := by
  have hnone : (¬ ∃ u ∈ stored, ∃ t ∈ ts, Same t u) → stored = stored.filter fun u => ∀ t ∈ ts, ¬ Same t u := by
    intro h
    refine (List.filter_eq_self.2 fun u hu => ?_).symm
    rw [decide_eq_true_eq]
    exact fun t ht hs => h ⟨u, hu, t, ht, hs⟩
  unfold removeOffNode
  split
  · rename_i he
    subst he
    exact ⟨fun _ _ _ => hnone (by simp), nofun, rfl⟩
  · split
    · rename_i hk
      refine ⟨fun _ _ hkn => hnone ?_, nofun, rfl⟩
      cases known with
      | none => cases hk
      | some k =>
        rw [hkn k rfl] at hk
        rintro ⟨u, hu, t, ht, hs⟩
        simp only [Option.any_some, Bool.not_eq_true'] at hk
        have : ts.any (fun t => exists_ stored t) = true := List.any_eq_true.2 ⟨t, ht, (exists_iff stored t).2 ⟨u, hu, hs⟩⟩
        rw [hk] at this; cases this
    · split
      · exact ⟨nofun, fun _ => rfl, rfl⟩
      · rename_i l hr
        obtain ⟨g1, g2⟩ := removeAll_spec ts l
        split
        · rename_i hf
          refine ⟨fun _ he _ => hnone ?_, nofun, rfl⟩
          rw [hr] at he
          cases he
          rw [← g2, hf]; decide
        · split
          · rename_i hc
            obtain ⟨rfl, _⟩ := hc
            refine ⟨fun _ _ _ => g1, nofun, ?_⟩
            show (removeAll l ts).1.filter _ = _
            rw [g1, List.filter_filter]
            simp only [Bool.and_self]
          · exact ⟨nofun, fun _ => rfl, rfl⟩

/-- a taint is taken off a node with two -/
example : removeOffNode [{ key := "a", effect := "NoSchedule" }, { key := "b", effect := "NoExecute" }] none
    { read := some [{ key := "a", effect := "NoSchedule" }, { key := "b", effect := "NoExecute" }] } [{ key := "b", effect := "NoExecute" }] =
    ([{ key := "a", effect := "NoSchedule" }], .done) := by decide

/-! ### Adding and removing together -/

/-- what the notation for removals covers: the effect may be left out -/
def Covers (r u : Taint) : Prop := r.key = u.key ∧ (r.effect = "" ∨ r.effect = u.effect)

instance (t u : Taint) : Decidable (Covers t u) := by unfold Covers; infer_instance

theorem addTaints_mem : ∀ (old new : List Taint), Valid old → ∀ u, u ∈ addTaints old new ↔ u ∈ new ∨ (u ∈ old ∧ ∀ t ∈ new, ¬ Same t u)
  | [], new, _, u => by simp [addTaints]
  | o :: old, new, hv, u => by
    obtain ⟨ho, hv⟩ := List.pairwise_cons.1 hv
    rw [addTaints, addTaints_mem old _ hv u]
    by_cases hx : new.any (fun t => t.matches o) = true
    · rw [if_pos hx]
      obtain ⟨t, ht, hm⟩ := List.any_eq_true.1 hx
      have hm := (matches_iff t o).1 hm
      constructor
      · rintro (h | ⟨h, h'⟩)
        · exact .inl h
        · exact .inr ⟨List.mem_cons_of_mem _ h, h'⟩
      · rintro (h | ⟨h, h'⟩)
        · exact .inl h
        · rcases List.mem_cons.1 h with rfl | h
          · exact absurd hm (h' t ht)
          · exact .inr ⟨h, h'⟩
    · rw [if_neg hx]
      have hx : ∀ t ∈ new, ¬ Same t o := fun t ht hs => hx (List.any_eq_true.2 ⟨t, ht, (matches_iff t o).2 hs⟩)
      constructor
      · rintro (h | ⟨h, h'⟩)
        · rcases List.mem_append.1 h with h | h
          · exact .inl h
          · rw [List.mem_singleton.1 h]; exact .inr ⟨List.mem_cons_self, hx⟩
        · exact .inr ⟨List.mem_cons_of_mem _ h, fun t ht => h' t (List.mem_append_left _ ht)⟩
      · rintro (h | ⟨h, h'⟩)
        · exact .inl (List.mem_append_left _ h)
        · rcases List.mem_cons.1 h with rfl | h
          · exact .inl (List.mem_append_right _ (List.mem_singleton.2 rfl))
          · refine .inr ⟨h, fun t ht => ?_⟩
            rcases List.mem_append.1 ht with ht | ht
            · exact h' t ht
            · rw [List.mem_singleton.1 ht]; exact ho u h

theorem deleteByKey_spec (k : String) : ∀ l : List Taint, (deleteByKey l k).1 = l.filter (fun u => k ≠ u.key) ∧ ((deleteByKey l k).2 = true ↔ ∃ u ∈ l, k = u.key)
  | [] => ⟨rfl, by simp [deleteByKey]⟩
  | u :: l => by
    obtain ⟨h1, h2⟩ := deleteByKey_spec k l
    unfold deleteByKey
    dsimp only
    by_cases h : k = u.key
    · rw [if_pos h]
      exact ⟨by rw [List.filter_cons_of_neg (by simpa using h)]; exact h1, by simp [h]⟩
    · rw [if_neg h]
      refine ⟨by rw [List.filter_cons_of_pos (by simpa using h)]; exact congrArg (u :: ·) h1, ?_⟩
      dsimp only
      rw [h2]
      simp [h]

/-- one removal -/
theorem removal_spec (t : Taint) (l : List Taint) :
    (if t.effect ≠ "" then delete l t else deleteByKey l t.key).1 = l.filter (fun u => ¬ Covers t u) ∧
    ((if t.effect ≠ "" then delete l t else deleteByKey l t.key).2 = true ↔ ∃ u ∈ l, Covers t u) := by
  by_cases h : t.effect = ""
  · rw [if_neg (by simpa using h)]
    have hc : ∀ u, Covers t u ↔ t.key = u.key := fun u => ⟨And.left, fun hk => ⟨hk, .inl h⟩⟩
    simp only [hc]
    exact deleteByKey_spec t.key l
  · rw [if_pos (by simpa using h)]
    have hc : ∀ u, Covers t u ↔ Same t u := fun u => ⟨fun hk => ⟨hk.1, hk.2.resolve_left h⟩, fun hk => ⟨hk.1, .inr hk.2⟩⟩
    simp only [hc]
    exact delete_spec l t

theorem deleteTaints_spec : ∀ (ts l : List Taint) (b : Bool), (deleteTaints ts l b).1 = l.filter (fun u => ∀ t ∈ ts, ¬ Covers t u) ∧
    (∀ t ∈ ts, (∀ u ∈ l, ¬ Covers t u) → t ∈ (deleteTaints ts l b).2.1) ∧
    (∀ t ∈ (deleteTaints ts l b).2.1, t ∈ ts ∧ ∀ u ∈ l, Covers t u → ∃ r ∈ ts, Covers r u ∧ (r ≠ t ∨ 2 ≤ ts.count t))
  | [], l, b => by
    rw [deleteTaints]
    exact ⟨(List.filter_eq_self.2 fun u _ => by simp).symm, nofun, nofun⟩
  | t :: ts, l, b => by
    obtain ⟨h1, h2⟩ := removal_spec t l
    rw [deleteTaints]
    dsimp only
    generalize (if t.effect ≠ "" then delete l t else deleteByKey l t.key) = d at h1 h2 ⊢
    obtain ⟨i1, i2, i3⟩ := deleteTaints_spec ts d.1 d.2
    refine ⟨?_, ?_, ?_⟩
    · rw [i1, h1, List.filter_filter]
      congr 1
      funext u
      rw [Bool.eq_iff_iff]
      simp only [Bool.and_eq_true, decide_eq_true_eq, List.mem_cons, forall_eq_or_imp]
      exact And.comm
    · intro x hx hn
      rcases List.mem_cons.1 hx with rfl | hx
      · have : d.2 = false := by
          cases hd : d.2 with
          | false => rfl
          | true => obtain ⟨u, hu, hc⟩ := h2.1 hd; exact absurd hc (hn u hu)
        rw [this]
        exact List.mem_append_left _ (List.mem_singleton.2 rfl)
      · refine List.mem_append_right _ (i2 x hx fun u hu => ?_)
        rw [h1] at hu
        exact hn u (List.mem_filter.1 hu).1
    · intro x hx
      rcases List.mem_append.1 hx with hx | hx
      · split at hx
        · cases hx
        · rename_i hd
          rw [List.mem_singleton.1 hx]
          exact ⟨List.mem_cons_self, fun u hu hc => absurd (h2.2 ⟨u, hu, hc⟩) hd⟩
      · obtain ⟨j1, j2⟩ := i3 x hx
        refine ⟨List.mem_cons_of_mem _ j1, fun u hu hc => ?_⟩
        by_cases ht : Covers t u
        · refine ⟨t, List.mem_cons_self, ht, ?_⟩
          by_cases he : t = x
          · right
            subst he
            rw [List.count_cons_self]
            have := List.count_pos_iff.2 j1
            omega
          · exact .inl he
        · obtain ⟨r, hr, hrc, hor⟩ := j2 u (by rw [h1]; exact List.mem_filter.2 ⟨hu, by simpa using ht⟩) hc
          refine ⟨r, List.mem_cons_of_mem _ hr, hrc, hor.imp_right fun h => ?_⟩
          have := List.count_le_count_cons (a := x) (b := t) (l := ts)
          omega

/-- C42: adding and removing in one step gives exactly the taints to be added and the old ones that none of these replaces, less those that a removal names. -/
theorem C42_reorganize (old : List Taint) (ho : Valid old) (ow : Bool) (add rem : List Taint) (u : Taint) :
    u ∈ (reorganize old ow add rem).2.1 ↔ (u ∈ add ∨ (u ∈ old ∧ ∀ t ∈ add, ¬ Same t u)) ∧ ∀ r ∈ rem, ¬ Covers r u := by
  show u ∈ (deleteTaints rem (addTaints old add) false).1 ↔ _
  rw [(deleteTaints_spec rem (addTaints old add) false).1, List.mem_filter, addTaints_mem old add ho, decide_eq_true_eq]

/-- C42: a removal is reported as not found exactly if it names none of the taints there are, as long as no two removals name the same taint. -/
theorem C42_reorganize_errors (old : List Taint) (ho : Valid old) (ow : Bool) (add rem : List Taint) (hn : rem.Nodup)
    (hr : ∀ r ∈ rem, ∀ r' ∈ rem, r ≠ r' → ∀ u, ¬ (Covers r u ∧ Covers r' u)) (r : Taint) :
    r ∈ (reorganize old ow add rem).2.2 ↔ r ∈ rem ∧ ∀ u, (u ∈ add ∨ (u ∈ old ∧ ∀ t ∈ add, ¬ Same t u)) → ¬ Covers r u := by
  obtain ⟨_, h2, h3⟩ := deleteTaints_spec rem (addTaints old add) false
  constructor
  · intro h
    obtain ⟨j1, j2⟩ := h3 r h
    refine ⟨j1, fun u hu hc => ?_⟩
    obtain ⟨x, hx, hxc, hor⟩ := j2 u ((addTaints_mem old add ho u).2 hu) hc
    rcases hor with hne | h2
    · exact hr x hx r j1 hne u ⟨hxc, hc⟩
    · have := List.nodup_iff_count.1 hn r
      omega
  · rintro ⟨h, hno⟩
    exact h2 r h fun u hu => hno u ((addTaints_mem old add ho u).1 hu)

/-- The word that sums up the change is wrong of a taint whose value is changed. -/
theorem C42_word_false : ¬ ∀ (old : List Taint) (add : List Taint), Valid old → (reorganize old false add []).1 = "untainted" → ∀ t ∈ add, t ∈ old := by
  intro h
  have := h [{ key := "a", value := "1", effect := "NoSchedule" }] [{ key := "a", value := "2", effect := "NoSchedule" }] (List.pairwise_singleton ..) (by decide)
    _ List.mem_cons_self
  revert this; decide

example : reorganize [{ key := "a", effect := "NoSchedule" }, { key := "b", effect := "NoExecute" }] false [{ key := "c", effect := "NoSchedule" }]
    [{ key := "a", effect := "" }, { key := "b", effect := "NoSchedule" }] =
    ("tainted", [{ key := "c", effect := "NoSchedule" }, { key := "b", effect := "NoExecute" }], [{ key := "b", effect := "NoSchedule" }]) := by decide

/-! ### C123: the notation -/

/-- characters that have a meaning in the notation -/
def Plain (s : List Char) : Prop := '=' ∉ s ∧ ':' ∉ s ∧ ',' ∉ s

/-- a taint that Kubernetes accepts -/
structure Writable (qual label : List Char → Bool) (t : Spec) : Prop where
  key : qual t.key = true
  value : label t.value = true
  effect : t.effect = "NoSchedule".toList ∨ t.effect = "PreferNoSchedule".toList ∨ t.effect = "NoExecute".toList

theorem split_none (c : Char) : ∀ s : List Char, c ∉ s → split c s = [s]
  | [], _ => rfl
  | x :: s, h => by
    rw [split, if_neg (fun he => h (by rw [he]; exact List.mem_cons_self)), split_none c s (fun he => h (List.mem_cons_of_mem _ he))]

theorem split_at (c : Char) : ∀ a b : List Char, c ∉ a → split c (a ++ c :: b) = a :: split c b
  | [], b, _ => by rw [List.nil_append, split, if_pos rfl]
  | x :: a, b, h => by
    rw [List.cons_append, split, if_neg (fun he => h (by rw [he]; exact List.mem_cons_self)), split_at c a b (fun he => h (List.mem_cons_of_mem _ he))]

theorem effect_plain {e : List Char} (h : e = "NoSchedule".toList ∨ e = "PreferNoSchedule".toList ∨ e = "NoExecute".toList) : Plain e := by
  rcases h with rfl | rfl | rfl <;> unfold Plain <;> decide

theorem parse_text (qual label : List Char → Bool) (hq : ∀ s, qual s = true → Plain s) (hl : ∀ s, label s = true → Plain s) (t : Spec)
    (h : Writable qual label t) : parseTaint qual label t.text = .ok t := by
  have hk := hq _ h.key
  have hv := hl _ h.value
  have he := effect_plain h.effect
  have e1 : split '=' t.text = [t.key, t.value ++ ':' :: t.effect] := by
    unfold Spec.text
    rw [show t.key ++ '=' :: t.value ++ ':' :: t.effect = t.key ++ '=' :: (t.value ++ ':' :: t.effect) by simp, split_at _ _ _ hk.1, split_none]
    intro hm
    rcases List.mem_append.1 hm with hm | hm
    · exact hv.1 hm
    · rcases List.mem_cons.1 hm with hm | hm
      · cases hm
      · exact he.1 hm
  have e2 : split ':' (t.value ++ ':' :: t.effect) = [t.value, t.effect] := by rw [split_at _ _ _ hv.2.1, split_none _ _ he.2.1]
  unfold parseTaint
  rw [e1]
  dsimp only
  rw [if_neg (by rw [h.key]; simp), e2]
  dsimp only
  rw [if_neg (by rw [h.value]; simp), if_pos]
  unfold effects
  rcases h.effect with h | h | h <;> rw [h] <;> simp

theorem text_plain (qual label : List Char → Bool) (hq : ∀ s, qual s = true → Plain s) (hl : ∀ s, label s = true → Plain s) (t : Spec)
    (h : Writable qual label t) : ',' ∉ t.text := by
  have hk := hq _ h.key
  have hv := hl _ h.value
  have he := effect_plain h.effect
  unfold Spec.text
  simp only [List.mem_append, List.mem_cons, not_or]
  exact ⟨⟨hk.2.2, by decide, hv.2.2⟩, by decide, he.2.2⟩

/-- C123: what is printed is read back: for every non-empty list of taints that Kubernetes accepts, `Set` of `String` gives the list. -/
theorem C123_round_trip (qual label : List Char → Bool) (hq : ∀ s, qual s = true → Plain s) (hl : ∀ s, label s = true → Plain s) (ts : List Spec)
    (hne : ts ≠ []) (h : ∀ t ∈ ts, Writable qual label t) : set qual label (text ts) = .ok ts := by
  unfold set text
  rw [if_neg hne]
  induction ts with
  | nil => exact absurd rfl hne
  | cons t r ih =>
    have ht := h t List.mem_cons_self
    cases r with
    | nil =>
      rw [List.map_cons, List.map_nil, join, split_none _ _ (text_plain qual label hq hl t ht), parseAll, parse_text qual label hq hl t ht]
      rfl
    | cons y r =>
      have := ih nofun (fun x hx => h x (List.mem_cons_of_mem _ hx))
      rw [List.map_cons, List.map_cons, join, split_at _ _ _ (text_plain qual label hq hl t ht), parseAll, parse_text qual label hq hl t ht]
      dsimp only
      rw [← List.map_cons, this]

/-- C123: `ParseTaints` never panics, whatever it is given, if names of keys have no colon. -/
theorem C123_parse_total (qual label : List Char → Bool) (hq : ∀ s, qual s = true → ':' ∉ s) : ∀ (sts : List (List Char)) (add rem : List Spec),
    parseTaints qual label sts add rem ≠ .panic := by
  have hone : ∀ st, ':' ∈ st → parseTaint qual label st ≠ .panic := by
    intro st hc hp
    unfold parseTaint at hp
    split at hp
    · rename_i k v hs
      split at hp
      · cases hp
      · rename_i hn
        have hcol : ':' ∈ v := by
          have hj : ∀ s : List Char, ':' ∈ s → ∃ p ∈ split '=' s, ':' ∈ p := by
            intro s
            induction s with
            | nil => exact nofun
            | cons x s ih =>
              intro hm
              rw [split]
              split
              · rename_i hx
                rcases List.mem_cons.1 hm with hm | hm
                · rw [hx] at hm; cases hm
                · obtain ⟨p, hp, hc⟩ := ih hm
                  exact ⟨p, List.mem_cons_of_mem _ hp, hc⟩
              · split
                · rename_i a r hs
                  rcases List.mem_cons.1 hm with hm | hm
                  · exact ⟨x :: a, List.mem_cons_self, by rw [hm]; exact List.mem_cons_self⟩
                  · obtain ⟨p, hp, hc⟩ := ih hm
                    rw [hs] at hp
                    rcases List.mem_cons.1 hp with rfl | hp
                    · exact ⟨x :: p, List.mem_cons_self, List.mem_cons_of_mem _ hc⟩
                    · exact ⟨p, List.mem_cons_of_mem _ hp, hc⟩
                · rename_i hs
                  rcases List.mem_cons.1 hm with hm | hm
                  · exact ⟨[x], List.mem_cons_self, by rw [hm]; exact List.mem_cons_self⟩
                  · obtain ⟨p, hp, _⟩ := ih hm
                    rw [hs] at hp; cases hp
          obtain ⟨p, hp, hcp⟩ := hj st hc
          rw [hs] at hp
          rcases List.mem_cons.1 hp with rfl | hp
          · have : qual p = true := by cases hqk : qual p with
              | true => rfl
              | false => exact absurd (.inr hqk) hn
            exact absurd hcp (hq p this)
          · rw [List.mem_singleton.1 hp] at hcp; exact hcp
        split at hp
        · split at hp
          · cases hp
          · split at hp <;> cases hp
        · rename_i a hsv
          have hsplit : ∀ s : List Char, ':' ∈ s → ∀ a, split ':' s ≠ [a] := by
            intro s hm a he
            obtain ⟨l, r, rfl⟩ := List.append_of_mem hm
            have hlen : ∀ (l r : List Char), 2 ≤ (split ':' (l ++ ':' :: r)).length := by
              intro l r
              have hpos : ∀ s : List Char, 1 ≤ (split ':' s).length := by
                intro s
                induction s with
                | nil => exact Nat.le_refl _
                | cons x s ih =>
                  rw [split]
                  split
                  · rw [List.length_cons]; omega
                  · split
                    · rw [List.length_cons]; omega
                    · exact Nat.le_refl _
              induction l with
              | nil => rw [List.nil_append, split, if_pos rfl, List.length_cons]; have := hpos r; omega
              | cons x l ih =>
                rw [List.cons_append, split]
                split
                · rw [List.length_cons]; omega
                · split
                  · rename_i hs; rw [hs] at ih; exact ih
                  · rename_i hs; rw [hs] at ih; exact absurd ih (by decide)
            have := hlen l r
            rw [he] at this
            exact absurd this (by simp)
          exact hsplit v hcol a hsv
        · cases hp
    · cases hp
  intro sts
  induction sts with
  | nil => intro add rem; nofun
  | cons st r ih =>
    intro add rem
    rw [parseTaints]
    split
    · rename_i hc
      split
      · split
        · nofun
        · exact ih _ _
      · nofun
      · rename_i hp; exact absurd hp (hone st hc.2)
    · split
      · dsimp only
        split
        · exact ih _ _
        · exact ih _ _
      · nofun

/-- C123: the taints to add that `ParseTaints` gives have different keys or effects, and effects that exist. -/
theorem C123_parse_valid (qual label : List Char → Bool) : ∀ (sts : List (List Char)) (add rem : List Spec) (add' rem' : List Spec),
    add.Pairwise (fun t u => ¬ (t.key = u.key ∧ t.effect = u.effect)) → (∀ t ∈ add, Writable qual label t) → parseTaints qual label sts add rem = .ok (add', rem') →
    add'.Pairwise (fun t u => ¬ (t.key = u.key ∧ t.effect = u.effect)) ∧ ∀ t ∈ add', Writable qual label t := by
  have hone : ∀ st t, parseTaint qual label st = .ok t → Writable qual label t := by
    intro st t h
    unfold parseTaint at h
    split at h
    · split at h
      · cases h
      · rename_i hn
        split at h
        · split at h
          · cases h
          · rename_i hlab
            split at h
            · rename_i hm
              cases h
              refine ⟨?_, ?_, ?_⟩
              · cases hq : qual _ with
                | true => rfl
                | false => exact absurd (.inr hq) hn
              · simpa using hlab
              · unfold effects at hm; simpa using hm
            · cases h
        · cases h
        · cases h
    · cases h
  intro sts
  induction sts with
  | nil => intro add rem add' rem' h1 h2 h; cases h; exact ⟨h1, h2⟩
  | cons st r ih =>
    intro add rem add' rem' h1 h2 h
    rw [parseTaints] at h
    split at h
    · split at h
      · rename_i t ht
        split at h
        · cases h
        · rename_i hno
          refine ih _ _ _ _ ?_ ?_ h
          · rw [List.pairwise_append]
            refine ⟨h1, List.pairwise_singleton .., fun x hx y hy => ?_⟩
            rw [List.mem_singleton.1 hy]
            intro hs
            exact hno (List.any_eq_true.2 ⟨x, hx, decide_eq_true hs⟩)
          · intro x hx
            rcases List.mem_append.1 hx with hx | hx
            · exact h2 x hx
            · rw [List.mem_singleton.1 hx]; exact hone st t ht
      · cases h
      · cases h
    · split at h
      · dsimp only at h
        split at h
        · exact ih _ _ _ _ h1 h2 h
        · exact ih _ _ _ _ h1 h2 h
      · cases h

/-- C123 fails for the flag: a taint without effect, which is refused by `ParseTaints`, makes `Set` panic. -/
theorem C123_set_panics_false : ¬ ∀ (qual label : List Char → Bool) (s : List Char), (∀ s, qual s = true → Plain s) → (∀ s, label s = true → Plain s) → set qual label s ≠ .panic := by
  intro h
  exact h (fun s => decide (s = "a".toList)) (fun s => decide (s = "b".toList)) "a=b".toList (by
    intro s hs
    rw [of_decide_eq_true hs]; unfold Plain; decide) (by
    intro s hs
    rw [of_decide_eq_true hs]; unfold Plain; decide) (by decide)

/-- two taints, one of them to be removed -/
example : parseTaints (fun _ => true) (fun _ => true) ["a=1:NoSchedule".toList, "b:NoExecute-".toList, "c-".toList] [] [] =
    .ok ([⟨"a".toList, "1".toList, "NoSchedule".toList⟩], [⟨"b".toList, [], "NoExecute".toList⟩, ⟨"c".toList, [], []⟩]) ∧
    parseTaints (fun _ => true) (fun _ => true) ["a=1:NoSchedule".toList, "a=2:NoSchedule".toList] [] [] = .error ∧
    text [⟨"a".toList, "1".toList, "NoSchedule".toList⟩, ⟨"b".toList, [], "NoExecute".toList⟩] = "a=1:NoSchedule,b=:NoExecute".toList := by decide

end MCM.Taints
