import Verif.Props.Rolling
import Mathlib.Data.List.Forall2
/-!
Which sets a step of a rolling update resizes: the old sets stay the same ones, and none of them grows.
-/
namespace MCM.Rolling
open MCM

/-- the same set, not larger, its other fields untouched -/
def Shrunk (a b : MS) : Prop := b.name = a.name ∧ 0 ≤ b.spec ∧ b.spec ≤ a.spec ∧ b.avail = a.avail

theorem shrunk_refl_list : ∀ (l : List MS), (∀ s ∈ l, 0 ≤ s.spec) → List.Forall₂ Shrunk l l
  | [], _ => .nil
  | s :: l, h => .cons ⟨rfl, h s (by simp), Int.le_refl _, rfl⟩ (shrunk_refl_list l fun x hx => h x (by simp [hx]))

theorem cleanup_shrunk (ok : MS → Bool) (maxC : Int) : ∀ (l : List MS) (t : Int), (∀ s ∈ l, 0 ≤ s.avail ∧ 0 ≤ s.spec) →
    List.Forall₂ Shrunk l (cleanupLoop ok maxC l t).1
  | [], t, _ => by rw [cleanupLoop]; exact .nil
  | s :: rest, t, hnn => by
    have hs := hnn s (by simp)
    have hr : ∀ x ∈ rest, 0 ≤ x.avail ∧ 0 ≤ x.spec := fun x hx => hnn x (by simp [hx])
    rcases cleanup_step ok maxC s rest t with ⟨t', e, h, _⟩ | ⟨_, _, h⟩ | ⟨c, hc0, hc1, _, _, h⟩
    · rw [h]; exact shrunk_refl_list _ fun x hx => (hnn x hx).2
    · rw [h]; exact .cons ⟨rfl, hs.2, Int.le_refl _, rfl⟩ (cleanup_shrunk ok maxC rest t hr)
    · rw [h]
      exact .cons ⟨rfl, by simp only; omega, by simp only; omega, rfl⟩ (cleanup_shrunk ok maxC rest (t + c) hr)

theorem scaleDown_shrunk (ok : MS → Bool) (total : Int) : ∀ (l : List MS) (t : Int), (∀ s ∈ l, 0 ≤ s.spec) →
    List.Forall₂ Shrunk l (scaleDownLoop ok total l t).1
  | [], t, _ => by rw [scaleDownLoop]; exact .nil
  | s :: rest, t, hnn => by
    have hs := hnn s (by simp)
    have hr : ∀ x ∈ rest, 0 ≤ x.spec := fun x hx => hnn x (by simp [hx])
    rw [scaleDownLoop]
    split
    · exact shrunk_refl_list _ hnn
    · split
      · exact .cons ⟨rfl, hs, Int.le_refl _, rfl⟩ (scaleDown_shrunk ok total rest t hr)
      · dsimp only
        split
        · exact shrunk_refl_list _ hnn
        · rcases scaleTo_cases (ok s) s (s.spec - min s.spec (total - t)) with ⟨h, he⟩ | ⟨h, he⟩ | ⟨h, he⟩
          · rw [h]
            exact .cons ⟨rfl, hs, Int.le_refl _, rfl⟩ (scaleDown_shrunk ok total rest _ hr)
          · rw [h]
            exact .cons ⟨rfl, by simp only; omega, by simp only; omega, rfl⟩ (scaleDown_shrunk ok total rest _ hr)
          · rw [h]; exact shrunk_refl_list _ hnn

/-- the sets `b` are the sets `a`, in some order, none of them larger -/
structure Downsized (a b : List MS) : Prop where
  names : (b.map (·.name)).Perm (a.map (·.name))
  shrunk : ∀ x ∈ b, ∃ y ∈ a, Shrunk y x

theorem Downsized.of_perm {a b : List MS} (h : b.Perm a) (hnn : ∀ s ∈ a, 0 ≤ s.spec) : Downsized a b :=
  ⟨h.map _, fun x hx => ⟨x, h.mem_iff.1 hx, rfl, hnn x (h.mem_iff.1 hx), Int.le_refl _, rfl⟩⟩

theorem forall2_mem {R : MS → MS → Prop} {a b : List MS} (h : List.Forall₂ R a b) : ∀ x ∈ b, ∃ y ∈ a, R y x := by
  induction h with
  | nil => simp
  | cons hr _ ih =>
    rename_i y x l1 l2 _
    intro z hz
    rcases List.mem_cons.1 hz with rfl | hz
    · exact ⟨y, by simp, hr⟩
    · obtain ⟨y, hy, hr⟩ := ih z hz; exact ⟨y, by simp [hy], hr⟩

theorem forall2_names {a b : List MS} (h : List.Forall₂ Shrunk a b) : b.map (·.name) = a.map (·.name) := by
  induction h with
  | nil => rfl
  | cons hr _ ih => rw [List.map_cons, List.map_cons, hr.1, ih]

theorem Downsized.of_forall2 {a b : List MS} (h : List.Forall₂ Shrunk a b) : Downsized a b :=
  ⟨by rw [forall2_names h], forall2_mem h⟩

theorem Downsized.trans {a b c : List MS} (h1 : Downsized a b) (h2 : Downsized b c) : Downsized a c := by
  refine ⟨h2.names.trans h1.names, fun x hx => ?_⟩
  obtain ⟨y, hy, e1, e2, e3, e4⟩ := h2.shrunk x hx
  obtain ⟨z, hz, f1, f2, f3, f4⟩ := h1.shrunk y hy
  exact ⟨z, hz, e1.trans f1, e2, by omega, e4.trans f4⟩

theorem Downsized.append {a b c e : List MS} (h1 : Downsized a b) (h2 : Downsized c e) : Downsized (a ++ c) (b ++ e) := by
  refine ⟨by rw [List.map_append, List.map_append]; exact h1.names.append h2.names, fun x hx => ?_⟩
  rcases List.mem_append.1 hx with hx | hx
  · obtain ⟨y, hy, h⟩ := h1.shrunk x hx; exact ⟨y, by simp [hy], h⟩
  · obtain ⟨y, hy, h⟩ := h2.shrunk x hx; exact ⟨y, by simp [hy], h⟩

theorem reconcileOld_downsized (d : Dep) (env : Env) (hs : env.Sorts) (allSpec : Int) (old : List MS) (new : MS)
    (hnn : ∀ s ∈ old, 0 ≤ s.avail ∧ 0 ≤ s.spec) : Downsized old (reconcileOld d env allSpec old new).1 := by
  have hself : Downsized old old := Downsized.of_perm (List.Perm.refl _) fun s h => (hnn s h).2
  unfold reconcileOld
  split
  · exact hself
  · dsimp only
    split
    · exact hself
    · have hn1 : ∀ s ∈ env.srt1 old, 0 ≤ s.avail ∧ 0 ≤ s.spec := fun s h => hnn s ((hs.1 old).mem_iff.1 h)
      have h1 := Downsized.of_forall2 (cleanup_shrunk env.okClean (allSpec - (d.replicas - maxUnavailable d) - (new.spec - new.avail)) (env.srt1 old) 0 hn1)
      have h01 := (Downsized.of_perm (hs.1 old) fun s h => (hnn s h).2).trans h1
      split
      · exact h01
      · have h2 : ∀ all o, (∀ s ∈ o, 0 ≤ s.spec) → Downsized o (scaleDownOld d env.okDown env.srt2 all o).1 := by
          intro all o hn
          unfold scaleDownOld
          dsimp only
          split
          · exact Downsized.of_perm (List.Perm.refl _) hn
          · exact (Downsized.of_perm (hs.2 o) hn).trans
              (Downsized.of_forall2 (scaleDown_shrunk _ _ _ _ fun s h => hn s ((hs.2 o).mem_iff.1 h)))
        have h3 := h01.trans (h2 ((cleanupLoop env.okClean (allSpec - (d.replicas - maxUnavailable d) - (new.spec - new.avail)) (env.srt1 old) 0).1 ++ [new]) _
          fun s h => by obtain ⟨y, _, _, h', _⟩ := h01.shrunk s h; exact h')
        split
        · exact h3
        · exact h3

/-- what a step of a rolling update does to the sets: the new set keeps its name and moves towards the desired size, and then no other set is touched;
or some of the other sets shrink -/
theorem rolloutStep_sets (d : Dep) (hd : d.strategy = .rolling) (env : Env) (hs : env.Sorts) (old : List MS) (new : MS)
    (hnn : ∀ s ∈ old, 0 ≤ s.avail ∧ 0 ≤ s.spec) :
    rolloutStep d env old new = (old, new)
    ∨ (∃ n, rolloutStep d env old new = (old, { new with spec := n }) ∧ (d.replicas - n).natAbs < (d.replicas - new.spec).natAbs
        ∧ ((n = d.replicas ∧ d.replicas < new.spec) ∨ new.spec < n ∧ n ≤ d.replicas))
    ∨ (∃ old', rolloutStep d env old new = (old', new) ∧ Downsized old old') := by
  rcases step_cases d env old new with h | ⟨n, hne, h, hc⟩ | ⟨old', h, ho, _, _⟩
  · exact .inl h
  · refine .inr (.inl ⟨n, h, ?_⟩)
    rcases hc with ⟨h1, rfl⟩ | ⟨h1, h2⟩
    · omega
    · have := newReplicas_mono d hd _ new n (by omega) h2; omega
  · refine .inr (.inr ⟨old', h, ?_⟩)
    have h1 := reconcileOld_downsized d env hs (specSum (old ++ [new])) (old.filter (fun s => s.spec > 0)) new (filter_forall _ _ hnn)
    have h2 : Downsized (old.filter fun s => !(decide (s.spec > 0))) (old.filter fun s => !(decide (s.spec > 0))) :=
      Downsized.of_perm (List.Perm.refl _) fun s h => (filter_forall _ _ hnn s h).2
    have h3 : Downsized old (old.filter (fun s => !(decide (s.spec > 0))) ++ old.filter (fun s => s.spec > 0)) := by
      refine Downsized.of_perm ?_ fun s h => (hnn s h).2
      exact (List.perm_append_comm).trans (List.filter_append_perm (fun s : MS => decide (s.spec > 0)) old)
    rw [ho]
    exact h3.trans (h2.append h1)

end MCM.Rolling
