import Verif.Lemmas.DispatchSteps
/-!
What a successful scaling leaves behind: sizes that are not negative, and no pending scaling request.
-/
namespace MCM.Scale
open MCM MCM.Rolling

theorem proportional_nonneg (d : Dep) (sr junk toAdd : Int) (hneg : toAdd < 0) (hr : 0 ≤ d.replicas + maxSurge d) (l : List MSet) : ∀ added,
    (∀ s ∈ l, 0 < s.spec) → (d.replicas ≠ 0 → ∀ s ∈ l, ∃ m, RecordedLimit s m ∧ 0 < m) →
    (proportional d sr junk toAdd l added).1.map (·.1) = l ∧ ∀ e ∈ (proportional d sr junk toAdd l added).1, 0 ≤ e.2 := by
  induction l with
  | nil => intro added _ _; simp [proportional]
  | cons s rest ih =>
    intro added hpos hlim
    have hs := hpos s (by simp)
    have hf : -s.spec ≤ fraction d sr junk s := by
      unfold fraction
      by_cases hz : d.replicas = 0
      · simp [hz]
      · simp only [hz, if_false]
        obtain ⟨m, ⟨t, ht, hm⟩, hm0⟩ := hlim hz s (by simp)
        simp only [ht, Option.bind_some, hm, Option.getD_some]
        have hx : 0 ≤ s.spec * (d.replicas + maxSurge d) := Int.mul_nonneg (by omega) hr
        have : 0 ≤ roundDiv junk (s.spec * (d.replicas + maxSurge d)) m := by
          unfold roundDiv
          simp only [show m ≠ 0 by omega, if_false, hm0, if_true, hx, ge_iff_le]
          exact Int.ediv_nonneg (by omega) (by omega)
        omega
    have hp : -s.spec ≤ proportion d sr junk s toAdd added := by
      unfold proportion; split
      · omega
      · simp only [show ¬ toAdd > 0 by omega, if_false]; omega
    unfold proportional
    simp only [show toAdd ≠ 0 by omega, ne_eq, not_false_eq_true, if_true]
    obtain ⟨i1, i2⟩ := ih (added + proportion d sr junk s toAdd added) (fun x hx => hpos x (by simp [hx])) (fun hz x hx => hlim hz x (by simp [hx]))
    refine ⟨by rw [List.map_cons, i1], fun e he => ?_⟩
    rcases List.mem_cons.1 he with rfl | he
    · simp only; omega
    · exact i2 e he

theorem addLeftover_nonneg (a b : Int) (l : List (MSet × Int)) (h : ∀ e ∈ l, 0 ≤ e.2) : ∀ e ∈ addLeftover a b l, 0 ≤ e.2 := by
  cases l with
  | nil => simp [addLeftover]
  | cons x l =>
    obtain ⟨s, n⟩ := x
    intro e he
    unfold addLeftover at he
    dsimp only at he
    by_cases h0 : a ≠ 0
    · rw [if_pos h0] at he
      rcases List.mem_cons.1 he with rfl | he
      · dsimp only; split <;> omega
      · exact h e (by simp [he])
    · rw [if_neg h0] at he; exact h e he

theorem scaleSet_full (d : Dep) (s : MSet) (n : Int) :
    (scaleSet d true s n).1 = { s with spec := n, desired := some (desiredText d), maxR := some (maxText d) } ∧ (scaleSet d true s n).2 = false := by
  unfold scaleSet
  split
  · exact ⟨rfl, rfl⟩
  · rename_i h
    have h1 : s.spec = n := Classical.byContradiction fun h' => h (.inl h')
    have h2 : s.desired = some (desiredText d) := Classical.byContradiction fun h' => h (.inr (.inl h'))
    have h3 : s.maxR = some (maxText d) := Classical.byContradiction fun h' => h (.inr (.inr h'))
    refine ⟨?_, rfl⟩
    cases s
    simp only at h1 h2 h3
    rw [h1, h2, h3]

theorem writeAll_full (d : Dep) (ok : MSet → Bool) (hok : ∀ s, ok s = true) : ∀ l : List (MSet × Int),
    (writeAll d ok l).1 = l.map fun e => { e.1 with spec := e.2, desired := some (desiredText d), maxR := some (maxText d) }
  | [] => rfl
  | (s, n) :: l => by
    unfold writeAll
    dsimp only
    rw [hok s, (scaleSet_full d s n).1, (scaleSet_full d s n).2]
    simp only [Bool.false_eq_true, if_false, List.map_cons]
    rw [writeAll_full d ok hok l]

/-- what has been settled for one set -/
def Settled (d : Dep) (all : List MSet) (s : MSet) : Prop :=
  0 ≤ s.spec ∧ (0 < s.spec → ∀ v, s.desired.bind atoi = some v → v = d.replicas) ∧ ∃ s0 ∈ all, s0.name = s.name ∧ s.avail = s0.avail

theorem settled_written (d : Dep) (hr : 0 ≤ d.replicas) (hm : d.replicas < 2^63) {all : List MSet} {s : MSet} (hs : s ∈ all) {n : Int} (hn : 0 ≤ n) :
    Settled d all { s with spec := n, desired := some (desiredText d), maxR := some (maxText d) } := by
  refine ⟨hn, fun _ v hv => ?_, s, hs, rfl, rfl⟩
  rw [Option.bind_some, desiredText_reads d hr hm] at hv
  cases hv; rfl

theorem settled_empty {d : Dep} {all : List MSet} {s : MSet} (hs : s ∈ all) (hn : s.spec = 0) : Settled d all s :=
  ⟨by omega, fun h => by omega, s, hs, rfl, rfl⟩

/-- sizes written to all active sets -/
theorem settles_active (d : Dep) (hr : 0 ≤ d.replicas) (hm : d.replicas < 2^63) (ok : MSet → Bool) (hok : ∀ s, ok s = true) (all : List MSet)
    (hnn : ∀ s ∈ all, 0 ≤ s.spec) (sizes : List (MSet × Int)) (h1 : (sizes.map (·.1)).Perm (active all)) (h2 : ∀ e ∈ sizes, 0 ≤ e.2) :
    (((all.filter fun s => !(s.spec > 0)) ++ (writeAll d ok sizes).1).map (·.name)).Perm (all.map (·.name)) ∧
    ∀ s ∈ (all.filter fun s => !(s.spec > 0)) ++ (writeAll d ok sizes).1, Settled d all s := by
  rw [writeAll_full d ok hok]
  constructor
  · rw [List.map_append, List.map_map]
    have : sizes.map ((fun s : MSet => s.name) ∘ fun e => { e.1 with spec := e.2, desired := some (desiredText d), maxR := some (maxText d) })
        = (sizes.map (·.1)).map (·.name) := by rw [List.map_map]; rfl
    rw [this]
    refine (List.Perm.append_left _ (h1.map _)).trans ?_
    rw [← List.map_append]
    exact (split_perm all (fun s => decide (s.spec > 0))).map _
  · intro s hs
    rcases List.mem_append.1 hs with hs | hs
    · have h3 := List.mem_filter.1 hs
      have h4 := hnn s h3.1
      have h5 : ¬ s.spec > 0 := by simpa using h3.2
      exact settled_empty h3.1 (by omega)
    · obtain ⟨e, he, rfl⟩ := List.mem_map.1 hs
      have : e.1 ∈ active all := h1.mem_iff.1 (List.mem_map.2 ⟨e, he, rfl⟩)
      exact settled_written d hr hm (List.mem_filter.1 this).1 (h2 e he)

theorem zeroAll_full (d : Dep) (ok : MSet → Bool) (hok : ∀ s, ok s = true) : ∀ l : List MSet, (∀ s ∈ l, 0 < s.spec) →
    (zeroAll d ok l).1 = l.map fun s => { s with spec := 0, desired := some (desiredText d), maxR := some (maxText d) }
  | [], _ => rfl
  | s :: l, h => by
    unfold zeroAll
    dsimp only
    have h0 := h s (by simp)
    have : scaleSetEv d (ok s) s 0 = scaleSet d true s 0 := by
      unfold scaleSetEv
      rw [if_neg (by omega), hok s]
    rw [this, (scaleSet_full d s 0).1, (scaleSet_full d s 0).2]
    simp only [Bool.false_eq_true, if_false, List.map_cons]
    rw [zeroAll_full d ok hok l fun x hx => h x (by simp [hx])]

theorem scale_settles (d : Dep) (hd : d.strategy = .rolling) (hr : 0 ≤ d.replicas) (hm : d.replicas < 2^63) (hrs : 0 ≤ d.replicas + maxSurge d) (env : Env)
    (hs : env.Sorts) (hok : env.AllOk) (old : List MSet) (n : MSet) (hnn : ∀ s ∈ old ++ [n], 0 ≤ s.spec)
    (hlim : d.replicas ≠ 0 → ∀ s ∈ old ++ [n], 0 < s.spec → ∃ m, RecordedLimit s m ∧ 0 < m) :
    ((scale d env old (some n)).1.map (·.name)).Perm ((old ++ [n]).map (·.name)) ∧ ∀ s ∈ (scale d env old (some n)).1, Settled d (old ++ [n]) s := by
  have hall : old ++ (some n).toList = old ++ [n] := rfl
  unfold scale
  rw [hall]
  dsimp only
  cases hfind : findActiveOrLatest env old (some n) with
  | some s =>
    dsimp only
    have hone : s ∈ old ++ [n] ∧ ∀ x ∈ old ++ [n], x ≠ s → x.spec ≤ 0 := by
      unfold findActiveOrLatest at hfind
      have hp : (env.srtNewest old ++ (some n).toList).Perm (old ++ [n]) := (hs.1 old).append_right _
      have hin : ∀ x ∈ old ++ [n], 0 < x.spec → x ∈ active (env.srtNewest old ++ (some n).toList) :=
        fun x hx h0 => List.mem_filter.2 ⟨hp.mem_iff.2 hx, by simpa using h0⟩
      split at hfind
      · rename_i h0
        cases hfind
        refine ⟨by simp, fun x hx _ => ?_⟩
        apply Classical.byContradiction
        intro hc
        have := hin x hx (by omega)
        rw [h0] at this; cases this
      · rename_i y h0
        cases hfind
        have hy : s ∈ active (env.srtNewest old ++ (some n).toList) := by rw [h0]; simp
        refine ⟨hp.mem_iff.1 (List.mem_filter.1 hy).1, fun x hx hne => ?_⟩
        apply Classical.byContradiction
        intro hc
        have := hin x hx (by omega)
        rw [h0] at this
        exact hne (List.mem_singleton.1 this)
      · cases hfind
    have hw : (if s.spec = d.replicas then scaleSet d (env.ok s) s d.replicas else scaleSetEv d (env.ok s) s d.replicas).1
        = { s with spec := d.replicas, desired := some (desiredText d), maxR := some (maxText d) } := by
      rw [hok s]
      split
      · exact (scaleSet_full d s d.replicas).1
      · rename_i hne
        unfold scaleSetEv
        rw [if_neg hne]; exact (scaleSet_full d s d.replicas).1
    rw [hw]
    constructor
    · unfold replaceSet
      rw [List.map_map]
      have : (old ++ [n]).map ((fun s : MSet => s.name) ∘ fun x => if x.name = s.name then
          { s with spec := d.replicas, desired := some (desiredText d), maxR := some (maxText d) } else x) = (old ++ [n]).map (·.name) := by
        refine List.map_congr_left fun x _ => ?_
        simp only [Function.comp_apply]
        split
        · rename_i h; exact h.symm
        · rfl
      rw [this]
    · intro x hx
      unfold replaceSet at hx
      obtain ⟨y, hy, rfl⟩ := List.mem_map.1 hx
      split
      · exact settled_written d hr hm hone.1 hr
      · rename_i hne
        have h1 := hone.2 y hy fun h => hne (by rw [h])
        have h2 := hnn y hy
        exact settled_empty hy (by omega)
  | none =>
    dsimp only
    by_cases hsat : isSaturated d (some n) = true
    · rw [if_pos hsat]
      dsimp only
      rw [zeroAll_full d env.ok hok (active old) fun s hs => by simpa using (List.mem_filter.1 hs).2]
      constructor
      · rw [List.map_append, List.map_append, List.map_append, List.map_map]
        refine List.Perm.append_right _ ?_
        have : (active old).map ((fun s : MSet => s.name) ∘ fun s => { s with spec := 0, desired := some (desiredText d), maxR := some (maxText d) })
            = (active old).map (·.name) := rfl
        rw [this, ← List.map_append]
        exact (split_perm old (fun s => decide (s.spec > 0))).map _
      · intro x hx
        rcases List.mem_append.1 hx with hx | hx
        · rcases List.mem_append.1 hx with hx | hx
          · have h3 := List.mem_filter.1 hx
            have h4 := hnn x (List.mem_append_left _ h3.1)
            have h5 : ¬ x.spec > 0 := by simpa using h3.2
            exact settled_empty (List.mem_append_left _ h3.1) (by omega)
          · obtain ⟨e, he, rfl⟩ := List.mem_map.1 hx
            exact settled_written d hr hm (List.mem_append_left _ (List.mem_filter.1 he).1) (by omega)
        · have hxn : x = n := by simpa using hx
          rw [hxn]
          refine ⟨hnn n (by simp), fun _ v hv => ?_, n, by simp, rfl, rfl⟩
          unfold isSaturated at hsat
          dsimp only at hsat
          cases hdes : n.desired with
          | none => rw [hdes] at hv; cases hv
          | some t =>
            rw [hdes] at hv hsat
            simp only [Option.getD_some] at hsat
            rw [Option.bind_some] at hv
            rw [hv] at hsat
            simp at hsat
            exact hsat.1.2
    · rw [if_neg hsat, if_pos hd]
      split
      · refine settles_active d hr hm env.ok hok _ hnn _ ?_ ?_
        · rw [addLeftover_fst]
          unfold upSizes
          rw [List.map_map]
          exact .of_eq (by conv => rhs; rw [← List.map_id (active (old ++ [n]))]
                           rfl)
        · refine addLeftover_nonneg _ _ _ fun e he => ?_
          unfold upSizes at he
          obtain ⟨s, hs', rfl⟩ := List.mem_map.1 he
          have := hnn s (List.mem_filter.1 hs').1
          dsimp only
          split <;> omega
      · rename_i hneg
        have hpa := hs.2 (active (old ++ [n]))
        have hposa : ∀ s ∈ env.srtSize (active (old ++ [n])), 0 < s.spec := by
          intro s h; have := (List.mem_filter.1 (hpa.mem_iff.1 h)).2; simpa using this
        obtain ⟨p1, p2⟩ := proportional_nonneg d env.statusReplicas env.junk (allowedSize d - total (active (old ++ [n]))) (by omega) hrs
          (env.srtSize (active (old ++ [n]))) 0 hposa (fun hz s h => hlim hz s (List.mem_filter.1 (hpa.mem_iff.1 h)).1 (hposa s h))
        refine settles_active d hr hm env.ok hok _ hnn _ ?_ (addLeftover_nonneg _ _ _ p2)
        rw [addLeftover_fst, p1]; exact hpa

/-! ### Scaling of which some calls may fail -/

/-- what holds of every set, whichever calls failed -/
def Loosely (d : Dep) (all : List MSet) (s : MSet) : Prop :=
  0 ≤ s.spec ∧ (d.replicas ≠ 0 → 0 < s.spec → ∃ m, RecordedLimit s m ∧ 0 < m) ∧ ∃ s0 ∈ all, s0.name = s.name ∧ s.avail = s0.avail

theorem maxText_reads {d : Dep} (hrs : 0 ≤ d.replicas + maxSurge d) (hm : d.replicas + maxSurge d < 2^63) :
    atoi (maxText d) = some (d.replicas + maxSurge d) := by
  unfold maxText
  obtain ⟨n, hn⟩ := Int.eq_ofNat_of_zero_le hrs
  rw [hn] at hm ⊢
  exact atoi_repr n (by omega)

theorem scaleSet_or (d : Dep) (ok : Bool) (s : MSet) (n : Int) :
    (scaleSet d ok s n).1 = s ∨ (scaleSet d ok s n).1 = { s with spec := n, desired := some (desiredText d), maxR := some (maxText d) } := by
  unfold scaleSet
  split
  · split
    · exact .inr rfl
    · exact .inl rfl
  · exact .inl rfl

theorem scaleSetEv_or (d : Dep) (ok : Bool) (s : MSet) (n : Int) :
    (scaleSetEv d ok s n).1 = s ∨ (scaleSetEv d ok s n).1 = { s with spec := n, desired := some (desiredText d), maxR := some (maxText d) } := by
  unfold scaleSetEv
  split
  · exact .inl rfl
  · exact scaleSet_or d ok s n

theorem writeAll_mem (d : Dep) (ok : MSet → Bool) : ∀ (l : List (MSet × Int)), ∀ s ∈ (writeAll d ok l).1,
    ∃ e ∈ l, s = e.1 ∨ s = { e.1 with spec := e.2, desired := some (desiredText d), maxR := some (maxText d) }
  | [], s, h => by simp [writeAll] at h
  | (x, n) :: l, s, h => by
    unfold writeAll at h
    dsimp only at h
    have hx : s = (scaleSet d (ok x) x n).1 → ∃ e ∈ (x, n) :: l, s = e.1 ∨ s = { e.1 with spec := e.2, desired := some (desiredText d), maxR := some (maxText d) } := by
      intro h
      refine ⟨(x, n), by simp, ?_⟩
      rw [h]; exact scaleSet_or d (ok x) x n
    split at h
    · rcases List.mem_cons.1 h with h | h
      · exact hx h
      · obtain ⟨e, he, rfl⟩ := List.mem_map.1 h
        exact ⟨e, by simp [he], .inl rfl⟩
    · rcases List.mem_cons.1 h with h | h
      · exact hx h
      · obtain ⟨e, he, h⟩ := writeAll_mem d ok l s h
        exact ⟨e, by simp [he], h⟩

theorem zeroAll_mem (d : Dep) (ok : MSet → Bool) : ∀ (l : List MSet), ∀ s ∈ (zeroAll d ok l).1,
    ∃ e ∈ l, s = e ∨ s = { e with spec := 0, desired := some (desiredText d), maxR := some (maxText d) }
  | [], s, h => by simp [zeroAll] at h
  | x :: l, s, h => by
    unfold zeroAll at h
    dsimp only at h
    have hx : s = (scaleSetEv d (ok x) x 0).1 → ∃ e ∈ x :: l, s = e ∨ s = { e with spec := 0, desired := some (desiredText d), maxR := some (maxText d) } := by
      intro h
      refine ⟨x, by simp, ?_⟩
      rw [h]; exact scaleSetEv_or d (ok x) x 0
    split at h
    · rcases List.mem_cons.1 h with h | h
      · exact hx h
      · exact ⟨s, by simp [h], .inl rfl⟩
    · rcases List.mem_cons.1 h with h | h
      · exact hx h
      · obtain ⟨e, he, h⟩ := zeroAll_mem d ok l s h
        exact ⟨e, by simp [he], h⟩

theorem scale_loose (d : Dep) (hr : 0 ≤ d.replicas) (hsur : 0 ≤ maxSurge d) (hm : d.replicas + maxSurge d < 2^63) (env : Env)
    (hs : env.Sorts) (old : List MSet) (new : Option MSet) (hnn : ∀ s ∈ old ++ new.toList, 0 ≤ s.spec)
    (hlim : d.replicas ≠ 0 → ∀ s ∈ old ++ new.toList, 0 < s.spec → ∃ m, RecordedLimit s m ∧ 0 < m) :
    ∀ s ∈ (scale d env old new).1, Loosely d (old ++ new.toList) s := by
  have same : ∀ s ∈ old ++ new.toList, Loosely d (old ++ new.toList) s := fun s h => ⟨hnn s h, fun hz h0 => hlim hz s h h0, s, h, rfl, rfl⟩
  have full : ∀ s ∈ old ++ new.toList, ∀ k : Int, 0 ≤ k → Loosely d (old ++ new.toList) { s with spec := k, desired := some (desiredText d), maxR := some (maxText d) } :=
    fun s h k hk => ⟨hk, fun hz _ => ⟨d.replicas + maxSurge d, ⟨_, rfl, maxText_reads (by omega) hm⟩, by omega⟩, s, h, rfl, rfl⟩
  have hmemA : ∀ s ∈ active (old ++ new.toList), s ∈ old ++ new.toList := fun s h => (List.mem_filter.1 h).1
  have written : ∀ sizes : List (MSet × Int), (∀ e ∈ sizes, e.1 ∈ old ++ new.toList ∧ 0 ≤ e.2) →
      ∀ s ∈ ((old ++ new.toList).filter fun s => !(s.spec > 0)) ++ (writeAll d env.ok sizes).1, Loosely d (old ++ new.toList) s := by
    intro sizes hz s h
    rcases List.mem_append.1 h with h | h
    · exact same s (List.mem_filter.1 h).1
    · obtain ⟨e, he, h | h⟩ := writeAll_mem d env.ok sizes s h
      · rw [h]; exact same e.1 (hz e he).1
      · rw [h]; exact full e.1 (hz e he).1 e.2 (hz e he).2
  unfold scale
  dsimp only
  cases hfind : findActiveOrLatest env old new with
  | some s =>
    dsimp only
    have hmem : s ∈ old ++ new.toList := by
      unfold findActiveOrLatest at hfind
      have hp : (env.srtNewest old ++ new.toList).Perm (old ++ new.toList) := (hs.1 old).append_right _
      split at hfind
      · cases new with
        | some n => cases hfind; simp
        | none => exact List.mem_append_left _ ((hs.1 old).mem_iff.1 (List.mem_of_head? hfind))
      · rename_i y h0
        cases hfind
        have hy : s ∈ active (env.srtNewest old ++ new.toList) := by rw [h0]; simp
        exact hp.mem_iff.1 (List.mem_filter.1 hy).1
      · cases hfind
    have hx : ∀ x, x = (if s.spec = d.replicas then scaleSet d (env.ok s) s d.replicas else scaleSetEv d (env.ok s) s d.replicas).1 → Loosely d (old ++ new.toList) x := by
      intro x hx
      have : x = s ∨ x = { s with spec := d.replicas, desired := some (desiredText d), maxR := some (maxText d) } := by
        rw [hx]
        split
        · exact scaleSet_or ..
        · exact scaleSetEv_or ..
      rcases this with h | h
      · rw [h]; exact same s hmem
      · rw [h]; exact full s hmem _ hr
    intro x h
    unfold replaceSet at h
    obtain ⟨y, hy, rfl⟩ := List.mem_map.1 h
    by_cases hc : y.name = (if s.spec = d.replicas then scaleSet d (env.ok s) s d.replicas else scaleSetEv d (env.ok s) s d.replicas).1.name
    · rw [if_pos hc]; exact hx _ rfl
    · rw [if_neg hc]; exact same y hy
  | none =>
    dsimp only
    by_cases hsat : isSaturated d new = true
    · rw [if_pos hsat]
      intro x h
      rcases List.mem_append.1 h with h | h
      · rcases List.mem_append.1 h with h | h
        · exact same x (List.mem_append_left _ (List.mem_filter.1 h).1)
        · obtain ⟨e, he, h | h⟩ := zeroAll_mem d env.ok _ x h
          · rw [h]; exact same e (List.mem_append_left _ (List.mem_filter.1 he).1)
          · rw [h]; exact full e (List.mem_append_left _ (List.mem_filter.1 he).1) 0 (Int.le_refl _)
      · exact same x (List.mem_append_right _ h)
    · rw [if_neg hsat]
      by_cases hd : d.strategy = .rolling
      · rw [if_pos hd]
        split
        · refine written _ fun e he => ?_
          have h1 : ∀ e ∈ upSizes (new.map (·.name)) (allowedSize d - total (active (old ++ new.toList))) (active (old ++ new.toList)), 0 ≤ e.2 := by
            intro e he
            unfold upSizes at he
            obtain ⟨s, hs', rfl⟩ := List.mem_map.1 he
            have := hnn s (hmemA s hs')
            dsimp only
            split <;> omega
          refine ⟨?_, addLeftover_nonneg _ _ _ h1 e he⟩
          have h2 : e.1 ∈ (addLeftover (allowedSize d - total (active (old ++ new.toList))) (allowedSize d - total (active (old ++ new.toList)))
            (upSizes (new.map (·.name)) (allowedSize d - total (active (old ++ new.toList))) (active (old ++ new.toList)))).map (·.1) := List.mem_map.2 ⟨e, he, rfl⟩
          rw [addLeftover_fst] at h2
          unfold upSizes at h2
          rw [List.map_map] at h2
          obtain ⟨s, hs', he'⟩ := List.mem_map.1 h2
          rw [← he']; exact hmemA s hs'
        · rename_i hneg
          have hpa := hs.2 (active (old ++ new.toList))
          have hposa : ∀ s ∈ env.srtSize (active (old ++ new.toList)), 0 < s.spec := by
            intro s h; have := (List.mem_filter.1 (hpa.mem_iff.1 h)).2; simpa using this
          obtain ⟨p1, p2⟩ := proportional_nonneg d env.statusReplicas env.junk (allowedSize d - total (active (old ++ new.toList))) (by omega) (by omega)
            (env.srtSize (active (old ++ new.toList))) 0 hposa (fun hz s h => hlim hz s (List.mem_filter.1 (hpa.mem_iff.1 h)).1 (hposa s h))
          refine written _ fun e he => ⟨?_, addLeftover_nonneg _ _ _ p2 e he⟩
          have h2 := List.mem_map (f := fun e : MSet × Int => e.1).2 ⟨e, he, rfl⟩
          rw [addLeftover_fst, p1] at h2
          exact hmemA _ (hpa.mem_iff.1 h2)
      · rw [if_neg hd]; exact same

end MCM.Scale

namespace MCM.Dispatch
open MCM MCM.Template MCM.Rolling

/-- every set with machines carries a positive limit, unless there shall be none -/
def Limits (d : FDep) (l : List FSet) : Prop := d.spec.replicas ≠ 0 → ∀ f ∈ l, 0 < f.set.spec → ∃ m, Scale.RecordedLimit f.set m ∧ 0 < m

theorem sync_settles {d : FDep} (hd : Rolls d) (hrs : 0 ≤ d.spec.replicas + maxSurge d.spec) {e : Env} {l : List FSet} (hsm : e.Smooth) {P : Prop} (hs : SoundIf P d l)
    (hl : Limits d l) {n : FSet} (hn : cur d l = some n) (hw : toWrite d l n = false) : Sound d (sync d e l) := by
  unfold sync
  rw [getNew_cur hn, sync_rest hw, hsm.dep]
  dsimp only
  rw [if_pos rfl, if_neg (by simp), curSet_eq hs.unique (cur_mem hn)]
  have hold : oldSets { sets := l, new := some n.set.name } = others l n.set.name := rfl
  have hpc : ∀ old l', pausedCleanup d e old l' = l' := by
    intro old l'
    unfold pausedCleanup
    rw [hd.unpaused]; rfl
  rw [hold, hpc, Option.map_some, ite_self]
  have hmem : ∀ s, s ∈ (others l n.set.name).map (·.set) ++ [n.set] ↔ ∃ f ∈ l, f.set = s := by
    intro s
    rw [List.mem_append, List.mem_map]
    constructor
    · rintro (⟨f, hf, rfl⟩ | h)
      · exact ⟨f, (mem_others.1 hf).1, rfl⟩
      · exact ⟨n, cur_mem hn, (List.mem_singleton.1 h).symm⟩
    · rintro ⟨f, hf, rfl⟩
      by_cases hc : f.set.name = n.set.name
      · right; rw [unique_eq l hs.unique f n hf (cur_mem hn) hc]; simp
      · exact .inl ⟨f, mem_others.2 ⟨hf, hc⟩, rfl⟩
  obtain ⟨p1, p2⟩ := Scale.scale_settles d.spec hd.strategy hd.size.1 hd.size.2 hrs e.scale hsm.sorts hsm.calls ((others l n.set.name).map (·.set)) n.set
    (fun s h => by obtain ⟨f, hf, rfl⟩ := (hmem s).1 h; exact (hs.nonneg f hf).1)
    (fun hz s h h0 => by obtain ⟨f, hf, rfl⟩ := (hmem s).1 h; exact hl hz f hf h0)
  generalize (Scale.scale d.spec e.scale ((others l n.set.name).map (·.set)) (some n.set)).1 = r at p1 p2 ⊢
  have hfind : ∀ f ∈ l, ∃ s ∈ r, r.find? (fun s => s.name == f.set.name) = some s ∧ s.name = f.set.name := by
    intro f hf
    have : f.set.name ∈ r.map (·.name) := p1.mem_iff.2 (List.mem_map.2 ⟨f.set, (hmem _).2 ⟨f, hf, rfl⟩, rfl⟩)
    obtain ⟨s, h1, h2⟩ := List.mem_map.1 this
    cases hx : r.find? fun s => s.name == f.set.name with
    | none => have := List.find?_eq_none.1 hx s h1; simp [h2] at this
    | some y => exact ⟨y, List.mem_of_find?_eq_some hx, rfl, by simpa using List.find?_some hx⟩
  have hout : ∀ f ∈ resize l r, ∃ s ∈ r, f.set = s := by
    intro f hf
    unfold resize at hf
    obtain ⟨a, ha, rfl⟩ := List.mem_map.1 hf
    obtain ⟨s, h1, h2, _⟩ := hfind a ha
    rw [h2]
    exact ⟨s, h1, rfl⟩
  refine ⟨?_, fun f hf => ?_, fun _ f hf hp v hv => ?_⟩
  · have hu := hs.unique
    unfold Unique at hu ⊢
    have : (resize l r).map (fun f => f.set.name) = l.map fun f => f.set.name := by
      unfold resize
      rw [List.map_map]
      refine List.map_congr_left fun a ha => ?_
      obtain ⟨s, h1, h2, h3⟩ := hfind a ha
      simp only [Function.comp_apply]
      rw [h2]; exact h3
    rw [this]; exact hu
  · obtain ⟨s, h1, h2⟩ := hout f hf
    obtain ⟨q1, _, s0, q3, _, q4⟩ := p2 s h1
    obtain ⟨g, hg, rfl⟩ := (hmem s0).1 q3
    rw [h2]
    exact ⟨q1, by rw [q4]; exact (hs.nonneg g hg).2⟩
  · obtain ⟨s, h1, h2⟩ := hout f hf
    rw [h2] at hp hv
    exact (p2 s h1).2.1 hp v hv

/-- no scaling request is seen -/
theorem sound_of_no_event {d : FDep} {P : Prop} {l : List FSet} (hs : SoundIf P d l) {n : FSet} (hn : n ∈ l)
    (h : Scale.isScalingEvent d.spec ((others l n.set.name).map (·.set)) (some n.set) = false) : Sound d l := by
  refine ⟨hs.unique, hs.nonneg, fun _ f hf hp v hv => ?_⟩
  have hmem : f.set ∈ (others l n.set.name).map (·.set) ++ [n.set] := by
    by_cases hc : f.set.name = n.set.name
    · rw [unique_eq l hs.unique f n hf hn hc]; simp
    · exact List.mem_append_left _ (List.mem_map.2 ⟨f, mem_others.2 ⟨hf, hc⟩, rfl⟩)
  unfold Scale.isScalingEvent at h
  dsimp only at h
  split at h
  · cases h
  · have := List.any_eq_false.1 h f.set (List.mem_filter.2 ⟨hmem, by simpa using hp⟩)
    rw [hv] at this
    simpa using this

theorem sized_limits {d : FDep} (hrs : 0 < d.spec.replicas + maxSurge d.spec ∨ d.spec.replicas = 0) (hm : d.spec.replicas + maxSurge d.spec < 2^63) {l l' : List FSet}
    (h : List.Forall₂ (Sized d) l l') (hl : Limits d l) : Limits d l' := by
  intro hz f hf hp
  obtain ⟨a, ha, hr⟩ := mem_forall2 h f hf
  rcases hr.limit with ⟨e1, e2⟩ | e
  · obtain ⟨m, ⟨t, h1, h2⟩, h3⟩ := hl hz a ha (by rw [← e1]; exact hp)
    exact ⟨m, ⟨t, by rw [e2]; exact h1, h2⟩, h3⟩
  · have h0 : 0 < d.spec.replicas + maxSurge d.spec := by
      rcases hrs with h | h
      · exact h
      · exact absurd h hz
    exact ⟨_, ⟨_, e, Scale.maxText_reads (by omega) hm⟩, h0⟩

theorem agree_limits {d : FDep} {l l' : List FSet} (h : List.Forall₂ Agree l l') (hl : Limits d l) : Limits d l' := by
  intro hz f hf hp
  obtain ⟨a, ha, hr⟩ := mem_forall2 h f hf
  obtain ⟨m, ⟨t, h1, h2⟩, h3⟩ := hl hz a ha (by rw [← hr.spec]; exact hp)
  exact ⟨m, ⟨t, by rw [hr.maxR]; exact h1, h2⟩, h3⟩

/-- sets in order, of any sizes, with or without a pending change of the number of replicas -/
structure Loose (d : FDep) (l : List FSet) : Prop where
  base : SoundIf False d l
  limits : Limits d l

/-- how far a change has been taken up: 1 – there is a current set; 2 – it is up to date; 3 – all sizes are -/
def Stage (d : FDep) : Nat → List FSet → Prop
  | 0, _ => True
  | 1, l => Sound d l ∨ ∃ n, cur d l = some n
  | 2, l => Sound d l ∨ ∃ n, cur d l = some n ∧ toWrite d l n = false
  | _, l => Sound d l

theorem agree_loose {d : FDep} {l l' : List FSet} (h : List.Forall₂ Agree l l') (hl : Loose d l) (ha : ∀ f ∈ l', 0 ≤ f.set.avail) : Loose d l' :=
  ⟨agree_sound h hl.base ha, agree_limits h hl.limits⟩

theorem sameRev_cur {d : FDep} {l l' : List FSet} (h : List.Forall₂ SameRev l l') (hc : ∃ n, cur d l = some n ∧ toWrite d l n = false) :
    ∃ n, cur d l' = some n ∧ toWrite d l' n = false := by
  obtain ⟨n, h1, h2⟩ := hc
  rcases cur_forall2 (d := d) (fun a b hr => by rw [hr.tmpl]; exact ⟨rfl, rfl⟩) h with ⟨e1, _⟩ | ⟨a, b, e1, e2, hr⟩
  · rw [h1] at e1; cases e1
  · rw [h1] at e1; cases e1
    exact ⟨b, e2, by rw [toWrite_congr h hr]; exact h2⟩

theorem kept_cur {d : FDep} {R : FSet → FSet → Prop} (hR : ∀ a b, R a b → b.tmpl.labels = a.tmpl.labels ∧ b.tmpl.body = a.tmpl.body) {l l' : List FSet}
    (h : List.Forall₂ R l l') (hc : ∃ n, cur d l = some n) : ∃ n, cur d l' = some n := by
  obtain ⟨n, h1⟩ := hc
  rcases cur_forall2 (d := d) hR h with ⟨e1, _⟩ | ⟨a, b, e1, e2, hr⟩
  · rw [h1] at e1; cases e1
  · exact ⟨b, e2⟩

theorem agree_stage {d : FDep} {l l' : List FSet} (h : List.Forall₂ Agree l l') (ha : ∀ f ∈ l', 0 ≤ f.set.avail) (i : Nat) (hs : Stage d i l) : Stage d i l' := by
  match i, hs with
  | 0, _ => trivial
  | 1, .inl hs => exact .inl (agree_sound h hs ha)
  | 1, .inr hs => exact .inr (kept_cur (fun a b hr => by rw [hr.tmpl]; exact ⟨rfl, rfl⟩) h hs)
  | 2, .inl hs => exact .inl (agree_sound h hs ha)
  | 2, .inr hs => exact .inr (sameRev_cur (h.imp fun _ _ hr => hr.sameRev) hs)
  | i + 3, hs => exact agree_sound (P := True) h hs ha

/-- as `scaleOrRoll_cases`, whether or not a change is pending -/
theorem scaleOrRoll_open {P : Prop} {d : FDep} (hd : Rolls d) {e : Env} {l : List FSet} (hs : SoundIf P d l) :
    (∃ n, cur d l = some n ∧ toWrite d l n = true ∧ scaleOrRoll d e l = if e.setOk then writeCur d l n else l) ∨
    (∃ n, cur d l = some n ∧ toWrite d l n = false ∧ ((e.depOk = false ∧ scaleOrRoll d e l = l) ∨
      (e.depOk = true ∧ Scale.isScalingEvent d.spec ((others l n.set.name).map (·.set)) (some n.set) = true ∧ scaleOrRoll d e l = sync d e l) ∨
      (Scale.isScalingEvent d.spec ((others l n.set.name).map (·.set)) (some n.set) = false ∧ scaleOrRoll d e l = rolloutRolling d e l))) ∨
    (cur d l = none ∧ scaleOrRoll d e l = rolloutRolling d e l) := by
  unfold scaleOrRoll
  cases hn : cur d l with
  | none =>
    refine .inr (.inr ⟨rfl, ?_⟩)
    rw [getNew_none hn]
    dsimp only
    simp only [Bool.false_eq_true, if_false, Bool.or_self]
    have : curSet { sets := l } = none := rfl
    rw [this, hd.strategy]
    rfl
  | some n =>
    rw [getNew_cur hn]
    cases hw : toWrite d l n with
    | true =>
      refine .inl ⟨n, rfl, hw, ?_⟩
      rw [sync_write hw]
      cases e.setOk <;> rfl
    | false =>
      refine .inr (.inl ⟨n, rfl, hw, ?_⟩)
      rw [sync_rest hw]
      cases hdep : e.depOk with
      | false => exact .inl ⟨rfl, rfl⟩
      | true =>
        right
        dsimp only
        rw [if_pos rfl]
        rw [if_neg (by simp), curSet_eq hs.unique (cur_mem hn)]
        have hold : oldSets { sets := l, new := some n.set.name } = others l n.set.name := rfl
        rw [hold, Option.map_some]
        cases hev : Scale.isScalingEvent d.spec ((others l n.set.name).map (·.set)) (some n.set) with
        | true => exact .inl ⟨rfl, rfl, rfl⟩
        | false => exact .inr ⟨rfl, by simp [hd.strategy]⟩

theorem resize_sameRev (l : List FSet) (r : List Scale.MSet) : List.Forall₂ SameRev l (resize l r) := by
  refine forall2_map _ _ fun a _ => ?_
  split
  · rename_i s hs
    exact ⟨by simpa using List.find?_some hs, rfl, rfl, rfl⟩
  · exact ⟨rfl, rfl, rfl, rfl⟩

theorem sync_sizes {P : Prop} {d : FDep} (hd : Plain d) {e : Env} {l : List FSet} (hs : SoundIf P d l) {n : FSet} (hn : cur d l = some n) (hw : toWrite d l n = false)
    (hdep : e.depOk = true) : sync d e l = resize l (Scale.scale d.spec e.scale ((others l n.set.name).map (·.set)) (some n.set)).1 := by
  unfold sync
  rw [getNew_cur hn, sync_rest hw, hdep]
  dsimp only
  rw [if_pos rfl, if_neg (by simp), curSet_eq hs.unique (cur_mem hn)]
  have hold : oldSets { sets := l, new := some n.set.name } = others l n.set.name := rfl
  have hpc : ∀ old l', pausedCleanup d e old l' = l' := by
    intro old l'
    unfold pausedCleanup
    rw [hd.unpaused]; rfl
  rw [hold, hpc, Option.map_some, ite_self]

/-- numbers that can be written down and read again -/
structure Sizes (d : FDep) : Prop where
  surge : 0 ≤ maxSurge d.spec
  max : d.spec.replicas + maxSurge d.spec < 2^63

/-- nothing negative, and a limit -/
def Fit (d : FDep) (s : Scale.MSet) : Prop := 0 ≤ s.spec ∧ 0 ≤ s.avail ∧ (d.spec.replicas ≠ 0 → 0 < s.spec → ∃ m, Scale.RecordedLimit s m ∧ 0 < m)

theorem Loose.fit {d : FDep} {l : List FSet} (hl : Loose d l) {f : FSet} (hf : f ∈ l) : Fit d f.set :=
  ⟨(hl.base.nonneg f hf).1, (hl.base.nonneg f hf).2, fun hz h0 => hl.limits hz f hf h0⟩

theorem fit_written {d : FDep} (h0 : 0 ≤ d.spec.replicas) (hz : Sizes d) {s : Scale.MSet} (hs : Fit d s) {n : Int} (hn : 0 ≤ n) :
    Fit d { s with spec := n, desired := some (Scale.desiredText d.spec), maxR := some (Scale.maxText d.spec) } := by
  have := hz.surge
  exact ⟨hn, hs.2.1, fun h1 _ => ⟨_, ⟨_, rfl, Scale.maxText_reads (by omega) hz.max⟩, by omega⟩⟩

theorem resize_loose {d : FDep} {l : List FSet} (hl : Loose d l) {r : List Scale.MSet} (hr : ∀ s ∈ r, Fit d s) : Loose d (resize l r) := by
  have hall : ∀ f ∈ resize l r, Fit d f.set := by
    intro f hf
    unfold resize at hf
    obtain ⟨a, ha, rfl⟩ := List.mem_map.1 hf
    split
    · rename_i s hs
      exact hr s (List.mem_of_find?_eq_some hs)
    · exact hl.fit ha
  exact ⟨⟨unique_forall2 (fun _ _ hr => hr.name) (resize_sameRev l r) hl.base.unique, fun f hf => ⟨(hall f hf).1, (hall f hf).2.1⟩, fun h => h.elim⟩,
    fun hz f hf h0 => (hall f hf).2.2 hz h0⟩

/-- sets that `scale` works on -/
theorem scaled_fit {d : FDep} (h0 : 0 ≤ d.spec.replicas) (hz : Sizes d) {e : Scale.Env} (he : e.Sorts) {l : List FSet} (hl : Loose d l) {old : List Scale.MSet}
    {new : Option Scale.MSet} (hsub : ∀ s ∈ old ++ new.toList, s ∈ l.map (·.set)) : ∀ s ∈ (Scale.scale d.spec e old new).1, Fit d s := by
  intro s hs
  obtain ⟨h1, h2, s0, h3, _, h4⟩ := Scale.scale_loose d.spec h0 hz.surge hz.max e he old new
    (fun s h => by obtain ⟨f, hf, rfl⟩ := List.mem_map.1 (hsub s h); exact (hl.base.nonneg f hf).1)
    (fun hz s h h0 => by obtain ⟨f, hf, rfl⟩ := List.mem_map.1 (hsub s h); exact hl.limits hz f hf h0) s hs
  obtain ⟨f, hf, rfl⟩ := List.mem_map.1 (hsub s0 h3)
  exact ⟨h1, by rw [h4]; exact (hl.base.nonneg f hf).2, h2⟩

theorem cleanup_alike' (d : FDep) (e : Env) (old l : List FSet) : List.Forall₂ Alike l (pausedCleanup d e old l) := by
  unfold pausedCleanup
  split
  · unfold cleanup
    dsimp only
    refine forall2_map _ _ fun a _ => ?_
    split
    · exact ⟨rfl, rfl, rfl, rfl, rfl, rfl, rfl, rfl⟩
    · exact Alike.refl a
  · exact forall2_refl Alike.refl l

theorem alike_loose {d : FDep} {l l' : List FSet} (h : List.Forall₂ Alike l l') (hl : Loose d l) : Loose d l' :=
  ⟨(alike_same h hl.base).1, agree_limits (h.imp fun _ _ hr => hr.agree) hl.limits⟩

theorem got_sub {l : List FSet} (g : Got) (hg : g.sets = l) : ∀ s ∈ (oldSets g).map (·.set) ++ ((curSet g).map (·.set)).toList, s ∈ l.map (·.set) := by
  intro s hs
  subst hg
  rcases List.mem_append.1 hs with hs | hs
  · obtain ⟨f, hf, rfl⟩ := List.mem_map.1 hs
    refine List.mem_map.2 ⟨f, ?_, rfl⟩
    unfold oldSets at hf
    split at hf
    · exact hf
    · exact (mem_others.1 hf).1
  · cases hc : curSet g with
    | none => rw [hc] at hs; cases hs
    | some f =>
      rw [hc] at hs
      rw [Option.map_some, Option.toList_some, List.mem_singleton] at hs
      rw [hs]
      refine List.mem_map.2 ⟨f, ?_, rfl⟩
      unfold curSet at hc
      split at hc
      · cases hc
      · exact List.mem_of_find?_eq_some hc

/-- the sets after looking for the current one, and after creating it if that is asked for -/
theorem got_loose {d : FDep} (h0 : 0 ≤ d.spec.replicas) (hz : Sizes d) {e : Env} {l : List FSet} (he : e.Fine l) (hl : Loose d l) (c : Bool) :
    Loose d (getNew d e c l).sets := by
  cases hn : cur d l with
  | some n =>
    rw [getNew_cur hn]
    cases hw : toWrite d l n with
    | true =>
      rw [sync_write hw]
      split
      · have hf := written_forall2 (d := d) hl.base.unique (cur_mem hn)
        refine ⟨⟨unique_forall2 (fun a b hr => by rw [hr.1]) hf hl.base.unique, fun f hf' => ?_, fun h => h.elim⟩, fun h0 f hf' hp => ?_⟩
        · obtain ⟨a, ha, hr⟩ := mem_forall2 hf f hf'
          rw [hr.1]; exact hl.base.nonneg a ha
        · obtain ⟨a, ha, hr⟩ := mem_forall2 hf f hf'
          rw [hr.1] at hp ⊢
          exact hl.limits h0 a ha hp
      · exact hl
    | false =>
      rw [sync_rest hw]
      split <;> exact hl
  | none =>
    rw [getNew_none hn]
    split
    · unfold createCurrent
      split
      · exact hl
      · rename_i size hsz
        have hsize : 0 ≤ size := by
          cases hst : d.spec.strategy with
          | rolling =>
            have := newReplicas_mono d.spec hst _ _ size (by simpa using h0) hsz
            simp only at this; omega
          | recreate => unfold newReplicas at hsz; rw [hst] at hsz; cases hsz; exact h0
          | other => unfold newReplicas at hsz; rw [hst] at hsz; cases hsz
        have hnew : Loose d (l ++ [newSet d e l size]) := by
          refine ⟨⟨?_, fun f hf => ?_, fun h => h.elim⟩, fun h1 f hf hp => ?_⟩
          · unfold Unique
            rw [List.map_append, List.nodup_append]
            refine ⟨hl.base.unique, by simp, fun a ha b hb' => ?_⟩
            obtain ⟨f, hf, rfl⟩ := List.mem_map.1 ha
            simp only [List.map_cons, List.map_nil, List.mem_singleton] at hb'
            rw [hb']; exact he.fresh f hf
          · rcases List.mem_append.1 hf with hf | hf
            · exact hl.base.nonneg f hf
            · rw [List.mem_singleton.1 hf]; exact ⟨hsize, Int.le_refl _⟩
          · rcases List.mem_append.1 hf with hf | hf
            · exact hl.limits h1 f hf hp
            · rw [List.mem_singleton.1 hf]
              have := hz.surge
              exact ⟨_, ⟨_, rfl, Scale.maxText_reads (by omega) hz.max⟩, by omega⟩
        split
        · exact hl
        · rename_i f hc; exact absurd hc (he.unseen f)
        · exact hnew
        · exact hnew
    · exact hl

theorem sync_loose {d : FDep} (h0 : 0 ≤ d.spec.replicas) (hz : Sizes d) {e : Env} {l : List FSet} (he : e.Fine l) (hl : Loose d l) : Loose d (sync d e l) := by
  have hg := got_loose h0 hz he hl false
  unfold sync
  dsimp only
  split
  · exact hg
  · have hr := resize_loose hg (scaled_fit h0 hz he.newest hg (got_sub (getNew d e false l) rfl))
    split
    · exact hr
    · exact alike_loose (cleanup_alike' d e _ _) hr

theorem pos_or_zero {d : FDep} (hd : Rolls d) (hz : Sizes d) : 0 < d.spec.replicas + maxSurge d.spec ∨ d.spec.replicas = 0 := by
  have := hd.size.1; have := hz.surge; omega

theorem rolled_loose {d : FDep} (hd : Rolls d) (hz : Sizes d) {e : Rolling.Env} (he : e.Sorts) {l : List FSet} (hl : Loose d l) {n : FSet} (hn : cur d l = some n) :
    Loose d (rolled d e l n) ∧ List.Forall₂ SameRev l (rolled d e l n) := by
  obtain ⟨n', _, _, _, _, h5, h6, _⟩ := rolled_sizes hd he hl.base hn
  exact ⟨⟨h6, sized_limits (pos_or_zero hd hz) hz.max (resizeMS_sized d l _) hl.limits⟩, h5⟩

theorem created_loose {d : FDep} (hd : Rolls d) (hz : Sizes d) {e : Env} {l : List FSet} (he : e.Fine l) (hl : Loose d l) (hn : cur d l = none) {size : Int}
    (hsz : newReplicas d.spec (l.map msOf ++ [{ spec := 0 }]) { spec := 0 } = some size) : Loose d (l ++ [newSet d e l size]) := by
  refine ⟨(created_less hd he hl.base hn hsz).1, fun h0 f hf hp => ?_⟩
  rcases List.mem_append.1 hf with hf | hf
  · exact hl.limits h0 f hf hp
  · rw [List.mem_singleton.1 hf]
    have := hd.size.1
    have := hz.surge
    exact ⟨_, ⟨_, rfl, Scale.maxText_reads (by omega) hz.max⟩, by omega⟩

/-- what one run leaves behind, whatever fails -/
theorem scaleOrRoll_loose {d : FDep} (hd : Rolls d) (hz : Sizes d) {e : Env} {l : List FSet} (he : e.Fine l) (hl : Loose d l) :
    Loose d (scaleOrRoll d e l) ∧ ((∃ n, cur d l = some n ∧ toWrite d l n = false) → List.Forall₂ SameRev l (scaleOrRoll d e l)) := by
  have hrefl : List.Forall₂ SameRev l l := forall2_refl (fun _ => ⟨rfl, rfl, rfl, rfl⟩) l
  rcases scaleOrRoll_open hd (e := e) hl.base with ⟨n, hn, hw, h⟩ | ⟨n, hn, hw, ⟨_, h⟩ | ⟨hdep, _, h⟩ | ⟨_, h⟩⟩ | ⟨hn, h⟩
  · rw [h]
    refine ⟨?_, fun ⟨m, h1, h2⟩ => by rw [hn] at h1; cases h1; rw [hw] at h2; cases h2⟩
    split
    · refine ⟨(write_shrinks hd hl.base hn hw).1, fun h0 f hf hp => ?_⟩
      obtain ⟨a, ha, hr⟩ := mem_forall2 (written_forall2 (d := d) hl.base.unique (cur_mem hn)) f hf
      rw [hr.1] at hp ⊢
      exact hl.limits h0 a ha hp
    · exact hl
  · rw [h]; exact ⟨hl, fun _ => hrefl⟩
  · rw [h]
    exact ⟨sync_loose hd.size.1 hz he hl, fun _ => by rw [sync_sizes hd.toPlain hl.base hn hw hdep]; exact resize_sameRev _ _⟩
  · rw [h]
    rcases rolling_cur (e := e) hl.base.unique hn hw with ⟨h1, _⟩ | ⟨h1, _⟩
    · exact ⟨alike_loose h1 hl, fun _ => h1.imp fun _ _ hr => hr.sameRev⟩
    · obtain ⟨r1, r2⟩ := rolled_loose hd hz he.sorts hl hn
      exact ⟨alike_loose h1 r1, fun _ => forall2_trans (R := SameRev) (fun _ _ _ p q => ⟨q.name.trans p.name, q.tmpl.trans p.tmpl, q.annotations.trans p.annotations, q.minReady.trans p.minReady⟩)
        r2 (h1.imp fun _ _ hr => hr.sameRev)⟩
  · rw [h]
    refine ⟨?_, fun ⟨m, h1, _⟩ => by rw [hn] at h1; cases h1⟩
    rcases rolling_none hd he hn with ⟨h1, _⟩ | ⟨size, hsz, h1⟩
    · rw [h1]; exact hl
    · have hc := created_loose hd hz he hl hn hsz
      rcases h1 with h1 | h1
      · rw [h1]; exact hc
      · exact alike_loose h1 (rolled_loose hd hz he.sorts hc (created_cur hd.toPlain hn size)).1

/-- no run loses what has been reached -/
theorem reconcile_loose {d : FDep} (hd : Rolls d) (hz : Sizes d) {e : Env} {l : List FSet} (he : e.Fine l) (hl : Loose d l) :
    Loose d (reconcile d e l).sets ∧ ∀ i, Stage d i l → Stage d i (reconcile d e l).sets := by
  have hsound : Sound d l → Sound d (reconcile d e l).sets := fun hs => (reconcile_noMore hd he hs).1.1
  rcases reconcile_rolls hd.toPlain e l with h | h
  · rw [h]; exact ⟨hl, fun _ h => h⟩
  · obtain ⟨h1, h2⟩ := scaleOrRoll_loose hd hz he hl
    rw [h] at hsound ⊢
    refine ⟨h1, fun i hs => ?_⟩
    match i, hs with
    | 0, _ => trivial
    | 1, .inl hs => exact .inl (hsound hs)
    | 1, .inr hs =>
      right
      have hk : ∀ a b, Kept a b → b.tmpl.labels = a.tmpl.labels ∧ b.tmpl.body = a.tmpl.body := fun a b h => h.2
      rcases scaleOrRoll_adds d e l hl.base.unique with h | ⟨_, x, _, h⟩
      · exact kept_cur hk h hs
      · refine kept_cur hk h ?_
        obtain ⟨n, hn⟩ := hs
        refine ⟨n, ?_⟩
        unfold cur at hn ⊢
        rw [List.find?_append, hn]; rfl
    | 2, .inl hs => exact .inl (hsound hs)
    | 2, .inr hs => exact .inr (sameRev_cur (h2 hs) hs)
    | i + 3, hs => exact hsound hs

/-- a good run gets on -/
theorem reconcile_next {d : FDep} (hd : Rolls d) (hz : Sizes d) (hsel : d.selectsAll = false) (hsu : (scaledValue d.spec.maxSurge d.spec.replicas true).isSome = true)
    {e : Env} {l : List FSet} (he : e.Fine l) (hsm : e.Smooth) (hcr : e.created = .done) (hl : Loose d l) :
    ∀ i, Stage d i l → Stage d (i + 1) (reconcile d e l).sets := by
  have hsound : Sound d l → Sound d (reconcile d e l).sets := fun hs => (reconcile_noMore hd he hs).1.1
  have hkeep := (reconcile_loose hd hz he hl).2
  have hre := reconcile_smooth hd.toPlain hsel hsm l
  intro i hs
  match i, hs with
  | 0, _ =>
    cases hn : cur d l with
    | some n => exact hkeep 1 (.inr ⟨n, hn⟩)
    | none =>
      right
      rcases scaleOrRoll_open hd (e := e) hl.base with ⟨n, h1, _⟩ | ⟨n, h1, _⟩ | ⟨_, h⟩
      · rw [hn] at h1; cases h1
      · rw [hn] at h1; cases h1
      · rw [hre, h]
        rcases rolling_none hd he hn with ⟨_, h2⟩ | ⟨size, hsz, h2 | h2⟩
        · exact absurd hcr (h2 hsu)
        · rw [h2]; exact ⟨_, created_cur hd.toPlain hn size⟩
        · refine kept_cur (fun a b hr => by rw [hr.tmpl]; exact ⟨rfl, rfl⟩) h2 ?_
          obtain ⟨n', k1, _⟩ := rolled_sizes hd he.sorts (created_loose hd hz he hl hn hsz).base (created_cur hd.toPlain hn size)
          exact ⟨n', k1⟩
  | 1, .inl hs => exact .inl (hsound hs)
  | 1, .inr ⟨n, hn⟩ =>
    cases hw : toWrite d l n with
    | false => exact hkeep 2 (.inr ⟨n, hn, hw⟩)
    | true =>
      right
      rcases scaleOrRoll_open hd (e := e) hl.base with ⟨m, h1, h2, h⟩ | ⟨m, h1, h2, _⟩ | ⟨h1, _⟩
      · rw [hn] at h1; cases h1
        rw [hre, h, hsm.set, if_pos rfl]
        exact ⟨_, write_rests hd.toPlain hl.base hn hw⟩
      · rw [hn] at h1; cases h1; rw [hw] at h2; cases h2
      · rw [hn] at h1; cases h1
  | 2, .inl hs => exact hsound hs
  | 2, .inr ⟨n, hn, hw⟩ =>
    rcases scaleOrRoll_open hd (e := e) hl.base with ⟨m, h1, h2, h⟩ | ⟨m, h1, h2, ⟨h, _⟩ | ⟨_, _, h⟩ | ⟨h, _⟩⟩ | ⟨h1, _⟩
    · rw [hn] at h1; cases h1; rw [hw] at h2; cases h2
    · rw [hsm.dep] at h; cases h
    · rw [hn] at h1; cases h1
      rw [hre, h]
      have := hd.size.1
      have := hz.surge
      exact sync_settles hd (by omega) hsm hl.base hl.limits hn hw
    · rw [hn] at h1; cases h1
      exact hsound (sound_of_no_event hl.base (cur_mem hn) h)
    · rw [hn] at h1; cases h1
  | i + 3, hs => exact hsound hs

/-! ### Deployments of any kind -/

theorem recreated_fit {d : FDep} (h0 : 0 ≤ d.spec.replicas) (hz : Sizes d) (o : Recreate.Out) (v : Recreate.View)
    (hv : ∀ s ∈ v.old ++ v.new.toList ++ o.created.toList, Fit d s) :
    ∀ s ∈ (Recreate.rolloutRecreate d.spec o v).1 ++ (Recreate.rolloutRecreate d.spec o v).2.toList, Fit d s := by
  have hold : ∀ s ∈ v.old, Fit d s := fun s h => hv s (by simp [h])
  have hnew : ∀ s ∈ v.new.toList, Fit d s := fun s h => hv s (by rw [List.mem_append, List.mem_append]; exact .inl (.inr h))
  have hone : ∀ s ok, Fit d s → Fit d (Scale.scaleSetEv d.spec ok s d.spec.replicas).1 := by
    intro s ok hs
    rcases Scale.scaleSetEv_or d.spec ok s d.spec.replicas with h | h
    · rw [h]; exact hs
    · rw [h]; exact fit_written h0 hz hs h0
  have both : ∀ (a : List Scale.MSet) (b : Option Scale.MSet), (∀ s ∈ a, Fit d s) → (∀ s ∈ b.toList, Fit d s) → ∀ s ∈ a ++ b.toList, Fit d s := by
    intro a b h1 h2 s hs
    rcases List.mem_append.1 hs with hs | hs
    · exact h1 s hs
    · exact h2 s hs
  unfold Recreate.rolloutRecreate
  split
  · exact both _ _ hold hnew
  · dsimp only
    split
    · refine both _ _ (fun s hs => ?_) hnew
      rcases List.mem_append.1 hs with hs | hs
      · exact hold s (List.mem_filter.1 hs).1
      · obtain ⟨x, hx, h | h⟩ := Scale.zeroAll_mem d.spec o.scaleEnv.ok _ s hs
        · rw [h]; exact hold x (List.mem_filter.1 hx).1
        · rw [h]; exact fit_written h0 hz (hold x (List.mem_filter.1 hx).1) (Int.le_refl _)
    · split
      · exact both _ _ hold hnew
      · split
        · rename_i n hn
          refine both _ _ hold fun s hs => ?_
          rw [Option.toList_some, List.mem_singleton] at hs
          rw [hs]; exact hone n _ (hnew n (by rw [hn]; simp))
        · split
          · exact both _ _ hold (by simp)
          · rename_i n hn
            refine both _ _ hold fun s hs => ?_
            rw [Option.toList_some, List.mem_singleton] at hs
            rw [hs]; exact hone n _ (hv n (by rw [hn]; simp))

theorem recreate_loose {d : FDep} (h0 : 0 ≤ d.spec.replicas) (hz : Sizes d) {e : Env} {l : List FSet} (he : e.Fine l) (hl : Loose d l) : Loose d (rolloutRecreate d e l) := by
  have hg := got_loose h0 hz he hl false
  unfold rolloutRecreate
  extract_lets g v wait g2 r
  have h2 : g.err = false → Loose d g2.sets := by
    intro hne
    by_cases hc : (g.new.isNone && !wait) = true
    · have : g2 = getNew d e true g.sets := if_pos hc
      rw [this]
      have hn : g.new = none := by
        cases hx : g.new with
        | none => rfl
        | some n => rw [hx] at hc; simp at hc
      have : g.sets = l := getNew_twice d e l hn hne
      rw [this]
      exact got_loose h0 hz he hl true
    · have : g2 = g := if_neg hc
      rw [this]; exact hg
  split
  · exact hg
  · rename_i hne
    have h2 := h2 (by simpa using hne)
    split
    · exact h2
    · refine alike_loose (cleanup_alike _ _ _ _) (resize_loose h2 (recreated_fit h0 hz _ _ fun s hs => ?_))
      rcases List.mem_append.1 hs with hs | hs
      · obtain ⟨f, hf, rfl⟩ := List.mem_map.1 (got_sub g rfl s hs)
        exact Loose.fit (l := g.sets) hg hf
      · obtain ⟨f, hf, rfl⟩ := List.mem_map.1 (got_sub g2 rfl s (List.mem_append_right _ hs))
        exact h2.fit hf

/-- a deployment as the API accepts it; its template leaves the hash label to the controller and has no label with an empty value -/
structure Valid (d : FDep) : Prop where
  alive : d.deleting = false
  size : 0 ≤ d.spec.replicas ∧ d.spec.replicas < 2^63
  sizes : Sizes d
  keys : (d.annotations.map Prod.fst).Nodup
  labels : IsMap d.template.labels
  noHash : List.lookup "machine-template-hash" d.template.labels = none
  values : NoEmptyValue d.template.labels

/-- whatever a run does, nothing becomes negative and limits are recorded -/
theorem reconcile_any {d : FDep} (hv : Valid d) {e : Env} {l : List FSet} (he : e.Fine l) (hl : Loose d l) : Loose d (reconcile d e l).sets := by
  have hsor : d.paused = false → d.rollbackTo = none → Loose d (scaleOrRoll d e l) := by
    intro hp hr
    cases hst : d.spec.strategy with
    | rolling => exact (scaleOrRoll_loose ⟨⟨hp, hv.alive, hr, hv.size, hv.keys, hv.labels⟩, hst⟩ hv.sizes he hl).1
    | recreate =>
      unfold scaleOrRoll
      dsimp only
      split
      · exact got_loose hv.size.1 hv.sizes he hl false
      · split
        · exact sync_loose hv.size.1 hv.sizes he hl
        · rw [hst]; exact recreate_loose hv.size.1 hv.sizes he hl
    | other =>
      unfold scaleOrRoll
      dsimp only
      split
      · exact got_loose hv.size.1 hv.sizes he hl false
      · split
        · exact sync_loose hv.size.1 hv.sizes he hl
        · rw [hst]; exact hl
  unfold reconcile
  split
  · exact hl
  split
  · exact hl
  split
  · exact hl
  rw [hv.alive]
  simp only [Bool.false_eq_true, if_false]
  split
  · exact hl
  split
  · exact sync_loose hv.size.1 hv.sizes he hl
  rename_i hp
  split
  · unfold rollback
    dsimp only
    split <;> exact got_loose hv.size.1 hv.sizes he hl true
  · rename_i hr; exact hsor (by simpa using hp) hr

/-- a template as the sets of valid deployments carry it -/
structure SetTemplate (t : Tmpl) : Prop where
  labels : IsMap t.labels
  hash : List.lookup "machine-template-hash" t.labels ≠ none
  values : NoEmptyValue t.labels

theorem SetTemplate.congr {a b : Tmpl} (h : SetTemplate a) (he : b.labels = a.labels) : SetTemplate b := by
  obtain ⟨h1, h2, h3⟩ := h
  exact ⟨by rw [he]; exact h1, by rw [he]; exact h2, by rw [he]; exact h3⟩

theorem SetTemplate.honest {d : FDep} (hv : Valid d) {t : Tmpl} (ht : SetTemplate t) : equalIgnoreHash t d.template = true ↔ SameTemplate t d.template :=
  C16_recognised_iff_partial t d.template ⟨ht.labels, hv.labels, ht.hash, hv.noHash, ht.values, hv.values⟩

theorem reconcile_templates {d : FDep} (hv : Valid d) {e : Env} {l : List FSet} (he : e.Fine l) (hu : Unique l) (ht : ∀ f ∈ l, SetTemplate f.tmpl) :
    ∀ f ∈ (reconcile d e l).sets, SetTemplate f.tmpl := by
  have hk : ∀ (a b : List FSet), List.Forall₂ Kept a b → (∀ f ∈ a, SetTemplate f.tmpl) → ∀ f ∈ b, SetTemplate f.tmpl := by
    intro a b h ha f hf
    obtain ⟨x, hx, hr⟩ := mem_forall2 h f hf
    exact (ha x hx).congr hr.2.1
  rcases reconcile_adds d e l hu hv.alive with h | ⟨_, x, hx, h⟩
  · exact hk _ _ h ht
  · refine hk _ _ h fun f hf => ?_
    rcases List.mem_append.1 hf with hf | hf
    · exact ht f hf
    · rw [List.mem_singleton.1 hf]
      rcases hx with ⟨_, _, hx, _⟩ | hx
      · refine ⟨?_, ?_, ?_⟩
        · rw [hx]
          have h := hv.labels
          unfold IsMap SMap.set
          unfold IsMap at h
          rw [List.map_cons, List.nodup_cons]
          refine ⟨fun hm => ?_, List.Nodup.sublist (List.filter_sublist.map _) h⟩
          obtain ⟨x, hx, hxe⟩ := List.mem_map.1 hm
          have := (List.mem_filter.1 hx).2
          simp at hxe
          simp [hxe] at this
        · rw [hx, show ("machine-template-hash" : String) = hashKey from rfl, lookup_set_eq]; simp
        · intro k v hkv
          rw [hx] at hkv
          by_cases hc : k = hashKey
          · rw [hc, lookup_set_eq] at hkv
            cases hkv; exact he.hash
          · rw [lookup_set_ne _ _ _ _ hc] at hkv
            exact hv.values k v hkv
      · exact absurd hx (he.unseen x)

theorem del_map {m : SMap} (h : IsMap m) (k : String) : IsMap (m.del k) := by
  unfold IsMap SMap.del at *
  exact List.Nodup.sublist (List.filter_sublist.map _) h

theorem set_map {m : SMap} (h : IsMap m) (k v : String) : IsMap (m.set k v) := by
  unfold IsMap SMap.set at *
  rw [List.map_cons, List.nodup_cons]
  refine ⟨fun hm => ?_, List.Nodup.sublist (List.filter_sublist.map _) h⟩
  obtain ⟨x, hx, hxe⟩ := List.mem_map.1 hm
  have := (List.mem_filter.1 hx).2
  simp [hxe] at this

theorem annotationsFromSet_map {a : SMap} (h : IsMap a) (b : SMap) : IsMap (Revision.annotationsFromSet a b) := by
  unfold Revision.annotationsFromSet
  have h0 : IsMap (a.filter fun e => Revision.skipped e.1) := by
    unfold IsMap at *
    exact List.Nodup.sublist (List.filter_sublist.map _) h
  generalize a.filter (fun e => Revision.skipped e.1) = acc at h0
  induction b generalizing acc with
  | nil => exact h0
  | cons x b ih =>
    rw [List.foldl_cons]
    refine ih _ ?_
    split
    · exact h0
    · exact set_map h0 _ _

theorem findRevision_mem {rv : Int} : ∀ {sets : List Template.MSet} {s : Template.MSet}, Rollback.findRevision rv sets = some s → s ∈ sets
  | [], _, h => by cases h
  | x :: l, s, h => by
    unfold Rollback.findRevision at h
    split at h
    · exact List.mem_cons_of_mem _ (findRevision_mem h)
    · split at h
      · cases h; simp
      · exact List.mem_cons_of_mem _ (findRevision_mem h)

/-- the deployment after a run: the same, or rolled back to the template of one of its sets -/
theorem reconcile_dep {d : FDep} (hv : Valid d) {e : Env} {l : List FSet} (he : e.Fine l) (hl : Loose d l) (ht : ∀ f ∈ l, SetTemplate f.tmpl) :
    Valid (reconcile d e l).dep ∧ (reconcile d e l).dep.spec = d.spec ∧ (d.rollbackTo = none → (reconcile d e l).dep = d) := by
  have hsame : Valid d ∧ d.spec = d.spec ∧ (d.rollbackTo = none → d = d) := ⟨hv, rfl, fun _ => rfl⟩
  have hts := reconcile_templates hv he hl.base.unique ht
  unfold reconcile at hts ⊢
  split
  · exact hsame
  split
  · exact hsame
  split
  · exact hsame
  rw [hv.alive]
  simp only [Bool.false_eq_true, if_false]
  split
  · exact hsame
  split
  · exact hsame
  rename_i h1 h2 h3 h4 h5
  split
  · rename_i rv hrv
    rw [if_neg h1, if_neg h2, if_neg h3, hv.alive, if_neg (by simp), if_neg h4, if_neg h5, hrv] at hts
    unfold rollback at hts ⊢
    dsimp only at hts ⊢
    split
    · exact hsame
    · rename_i hne
      rw [if_neg hne] at hts
      have hsub : ∀ s ∈ (oldSets (getNew d e true l) ++ (curSet (getNew d e true l)).toList).map tsetOf, SetTemplate s.template := by
        intro s hs
        obtain ⟨f, hf, rfl⟩ := List.mem_map.1 hs
        refine hts f ?_
        rcases List.mem_append.1 hf with hf | hf
        · unfold oldSets at hf
          split at hf
          · exact hf
          · exact (mem_others.1 hf).1
        · unfold curSet at hf
          split at hf
          · cases hf
          · exact List.mem_of_find?_eq_some (by simpa using hf)
      refine ⟨?_, rfl, fun h => by rw [hrv] at h; cases h⟩
      have hrun : ∀ x, x = Rollback.run ⟨d.template, d.annotations, d.rollbackTo⟩ rv ((oldSets (getNew d e true l) ++ (curSet (getNew d e true l)).toList).map tsetOf) true e.updateOk →
          IsMap x.template.labels ∧ List.lookup "machine-template-hash" x.template.labels = none ∧ NoEmptyValue x.template.labels ∧ (x.annotations.map Prod.fst).Nodup := by
        have hown : IsMap d.template.labels ∧ List.lookup "machine-template-hash" d.template.labels = none ∧ NoEmptyValue d.template.labels
          ∧ (d.annotations.map Prod.fst).Nodup := ⟨hv.labels, hv.noHash, hv.values, hv.keys⟩
        intro x hx
        rw [hx]
        unfold Rollback.run
        split
        · unfold Rollback.rollback
          dsimp only
          generalize (if rv = 0 then _ else rv : Int) = target
          by_cases hz : rv = 0 ∧ target = 0
          · rw [if_pos hz]; exact hown
          · rw [if_neg hz]
            split
            · exact hown
            · rename_i s hs
              unfold Rollback.rollbackToTemplate
              split
              · exact hown
              · have h := hsub s (findRevision_mem hs)
                refine ⟨del_map h.labels _, lookup_del_eq _ _, fun k v hkv => ?_, annotationsFromSet_map hv.keys _⟩
                unfold Rollback.fromSet at hkv
                dsimp only at hkv
                by_cases hc : k = hashKey
                · rw [hc, lookup_del_eq] at hkv; cases hkv
                · rw [lookup_del_ne _ _ _ hc] at hkv; exact h.values k v hkv
        · exact hown
      obtain ⟨a1, a2, a3, a4⟩ := hrun _ rfl
      exact ⟨hv.alive, hv.size, ⟨hv.sizes.surge, hv.sizes.max⟩, a4, a1, a2, a3⟩
  · exact hsame

end MCM.Dispatch
