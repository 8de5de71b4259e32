import Verif.Props.Dispatch
import Verif.Props.Rollback
/-!
C18 for whole runs of the deployment controller: which machine sets a run deletes.
-/
namespace MCM.Dispatch
open MCM MCM.Template MCM.Rolling

/-! ## Specification -/

/-- A set that may be deleted: it wants and has no machines, its controller has seen its latest version, and as many old sets as the history limit says (none for a negative
limit), none of them older, are there without being deleted before or by the run. -/
def Retired (d : FDep) (sets after : List FSet) (f : FSet) : Prop :=
  f.set.spec = 0 ∧ f.status = 0 ∧ f.generation ≤ f.observed ∧ ∃ (l : Int) (newer : List String), d.limit = some l ∧ (newer.length : Int) = max l 0 ∧
    newer.Nodup ∧
    ∀ n ∈ newer, ∃ x ∈ sets, x.set.name = n ∧ f.set.creation ≤ x.set.creation ∧ x.deleting = false ∧ ∀ y ∈ after, y.set.name = n → y.deleting = false

/-- the set of the current template -/
def Current (d : FDep) (sets : List FSet) (f : FSet) : Prop := sets.find? (fun f => equalIgnoreHash f.tmpl d.template) = some f

/-- a set of this name was being deleted before, be it one the run found only when it wanted to create it -/
def Before (e : Env) (sets : List FSet) (f : FSet) : Prop :=
  (∃ x ∈ sets, x.set.name = f.set.name ∧ x.deleting = true) ∨ ∃ x, e.created = .existing x ∧ x.set.name = f.set.name ∧ x.deleting = true

/-- A set is being deleted after a run only if it was before, or if it may be deleted and is not the current one, and the deployment is paused without a rollback or the
rollout has come to its end. -/
def Deletes (d : FDep) (e : Env) (sets after : List FSet) : Prop :=
  ∀ f ∈ after, f.deleting = true → Before e sets f ∨
    ((d.paused = true ∧ d.rollbackTo = none ∨ e.cleanupReached = true) ∧ ∃ x ∈ sets, x.set.name = f.set.name ∧ ¬ Current d sets x ∧ Retired d sets after x)

/-! ## The sets a run works with -/

theorem others_update (l : List FSet) (n : String) (m : FSet) (hm : m.set.name = n) :
    others (l.map fun f => if f.set.name == n then m else f) n = others l n := by
  unfold others
  induction l with
  | nil => rfl
  | cons a l ih =>
    rw [List.map_cons, List.filter_cons, List.filter_cons, ih]
    cases h : a.set.name == n with
    | false => simp [h]
    | true => simp [hm]

theorem others_sublist (l : List FSet) (n : String) : (others l n).Sublist l := List.filter_sublist

theorem mem_others {l : List FSet} {n : String} {f : FSet} : f ∈ others l n ↔ f ∈ l ∧ f.set.name ≠ n := by
  unfold others
  rw [List.mem_filter]
  simp

theorem others_append (l : List FSet) (f : FSet) : others (l ++ [f]) f.set.name = others l f.set.name := by
  unfold others
  rw [List.filter_append]
  simp

/-- old sets are sets there were before, as they were, and none is the current one; all other sets are as before or new -/
structure Read (d : FDep) (e : Env) (sets : List FSet) (g : Got) : Prop where
  old : g.err = false → (oldSets g).Sublist sets
  cur : g.err = false → ∀ f ∈ oldSets g, ¬ Current d sets f
  rest : ∀ f ∈ g.sets, f.deleting = true → Before e sets f
  back : g.err = false → ∀ f ∈ g.sets, ∀ x ∈ oldSets g, x.set.name = f.set.name → f ∈ oldSets g

theorem back_old {l : List FSet} {n : Option String} {err w : Bool} : ∀ f ∈ l, ∀ x ∈ oldSets ⟨l, n, err, w⟩, x.set.name = f.set.name → f ∈ oldSets ⟨l, n, err, w⟩ := by
  intro f hf x hx hn
  cases n with
  | none => exact hf
  | some n => exact mem_others.2 ⟨hf, hn ▸ (mem_others.1 hx).2⟩

theorem syncCurrent_read (d : FDep) (e : Env) (sets : List FSet) (n : FSet) (hn : Current d sets n) : Read d e sets (syncCurrent d e sets n) := by
  have hm : n ∈ sets := List.mem_of_find?_eq_some hn
  have hcur : ∀ f ∈ others sets n.set.name, ¬ Current d sets f := by
    intro f hf hc
    have : f = n := Option.some.inj (hc.symm.trans hn)
    exact (mem_others.1 hf).2 (by rw [this])
  have hrefl : ∀ f ∈ sets, f.deleting = true → Before e sets f :=
    fun f hf hd => .inl ⟨f, hf, rfl, hd⟩
  unfold syncCurrent
  dsimp only
  split
  · split
    · refine ⟨fun _ => ?_, fun _ => ?_, fun f hf hd => ?_, fun _ => back_old⟩
      · show (others (sets.map _) n.set.name).Sublist sets
        rw [others_update]
        · exact others_sublist _ _
        · rfl
      · show ∀ f ∈ others (sets.map _) n.set.name, _
        rw [others_update]
        · exact hcur
        · rfl
      · obtain ⟨a, ha, rfl⟩ := List.mem_map.1 hf
        split at hd
        · rename_i hn'
          have hn' : a.set.name = n.set.name := by simpa using hn'
          rw [if_pos (by simpa using hn')]
          exact .inl ⟨n, hm, rfl, hd⟩
        · rename_i hn'
          rw [if_neg hn']
          exact .inl ⟨a, ha, rfl, hd⟩
    · exact ⟨fun h => (nomatch h), fun h => (nomatch h), hrefl, fun h => (nomatch h)⟩
  · split
    · exact ⟨fun _ => others_sublist _ _, fun _ => hcur, hrefl, fun _ => back_old⟩
    · exact ⟨fun h => (nomatch h), fun h => (nomatch h), hrefl, fun h => (nomatch h)⟩

theorem createCurrent_read (d : FDep) (e : Env) (sets : List FSet) (hn : ∀ f, ¬ Current d sets f) : Read d e sets (createCurrent d e sets) := by
  have hrefl : ∀ f ∈ sets, f.deleting = true → Before e sets f :=
    fun f hf hd => .inl ⟨f, hf, rfl, hd⟩
  have hnew : ∀ size, ∀ f ∈ sets ++ [newSet d e sets size], f.deleting = true → Before e sets f := by
    intro size f hf hd
    rcases List.mem_append.1 hf with hf | hf
    · exact hrefl f hf hd
    · cases List.mem_singleton.1 hf; exact (nomatch hd)
  unfold createCurrent
  split
  · exact ⟨fun h => (nomatch h), fun h => (nomatch h), hrefl, fun h => (nomatch h)⟩
  · rename_i size _
    split
    · exact ⟨fun h => (nomatch h), fun h => (nomatch h), hrefl, fun h => (nomatch h)⟩
    · rename_i f hc
      refine ⟨fun _ => ?_, fun _ x _ => hn x, fun x hx hd => ?_, fun _ => back_old⟩
      · show (others (sets ++ [f]) f.set.name).Sublist sets
        rw [others_append]
        exact others_sublist _ _
      · rcases List.mem_append.1 hx with hx | hx
        · exact hrefl x hx hd
        · cases List.mem_singleton.1 hx; exact .inr ⟨f, hc, rfl, hd⟩
    · exact ⟨fun h => (nomatch h), fun h => (nomatch h), hnew size, fun h => (nomatch h)⟩
    · refine ⟨fun _ => ?_, fun _ x _ => hn x, hnew size, fun _ => back_old⟩
      show (others (sets ++ [newSet d e sets size]) (newSet d e sets size).set.name).Sublist sets
      rw [others_append]
      exact others_sublist _ _

theorem getNew_read (d : FDep) (e : Env) (c : Bool) (sets : List FSet) : Read d e sets (getNew d e c sets) := by
  unfold getNew
  cases hf : sets.find? fun f => equalIgnoreHash f.tmpl d.template with
  | some n => exact syncCurrent_read d e sets n hf
  | none =>
    have hn : ∀ f, ¬ Current d sets f := fun f h => by unfold Current at h; rw [hf] at h; cases h
    cases c with
    | true => exact createCurrent_read d e sets hn
    | false => exact ⟨fun _ => List.Sublist.refl _, fun _ x _ => hn x, fun f hf hd => .inl ⟨f, hf, rfl, hd⟩, fun _ => back_old⟩

/-! ## Clean-up -/

theorem Deletes.of_read {d : FDep} {e : Env} {sets : List FSet} {g : Got} (h : Read d e sets g) : Deletes d e sets g.sets :=
  fun f hf hd => .inl (h.rest f hf hd)

/-- each set of the second list comes from one of the first, with other sizes perhaps -/
def Comes (a b : List FSet) : Prop := ∀ f ∈ b, ∃ x ∈ a, x.set.name = f.set.name ∧ x.deleting = f.deleting

theorem resize_comes (l : List FSet) (r : List Scale.MSet) : Comes l (resize l r) := by
  intro f hf
  obtain ⟨a, ha, rfl⟩ := List.mem_map.1 hf
  refine ⟨a, ha, ?_⟩
  split
  · rename_i s hs
    have := List.find?_some hs
    exact ⟨(eq_of_beq this).symm, rfl⟩
  · exact ⟨rfl, rfl⟩

theorem resizeMS_comes (d : Dep) (l : List FSet) (r : List Rolling.MS) : Comes l (resizeMS d l r) := by
  intro f hf
  obtain ⟨a, ha, rfl⟩ := List.mem_map.1 hf
  refine ⟨a, ha, ?_⟩
  split
  · unfold withSize
    split <;> exact ⟨rfl, rfl⟩
  · exact ⟨rfl, rfl⟩

theorem Deletes.comes {d : FDep} {e : Env} {sets : List FSet} {g : Got} (h : Read d e sets g) {l : List FSet} (hc : Comes g.sets l) : Deletes d e sets l := by
  intro f hf hd
  obtain ⟨x, hx, hn, hx'⟩ := hc f hf
  rcases h.rest x hx (hx'.trans hd) with ⟨y, hy, h1, h2⟩ | ⟨y, hy, h1, h2⟩
  · exact .inl (.inl ⟨y, hy, h1.trans hn, h2⟩)
  · exact .inl (.inr ⟨y, hy, h1.trans hn, h2⟩)

theorem cleaned {d : FDep} {e : Env} {sets : List FSet} (hu : Unique sets) (hs : Rollback.Sorts e.cleanupSort)
    {g : Got} (h : Read d e sets g) (he : g.err = false) {l : List FSet} (hc : Comes g.sets l)
    (hw : d.paused = true ∧ d.rollbackTo = none ∨ e.cleanupReached = true) : Deletes d e sets (cleanup d e (oldSets g) l) := by
  have hsub := h.old he
  have huo : Unique (oldSets g) := (hsub.map _).nodup hu
  have hnames : ((oldSets g).map oldOf).map (·.name) = (oldSets g).map (·.set.name) := by rw [List.map_map]; rfl
  have hnn : (((oldSets g).map oldOf).map (·.name)).Nodup := by rw [hnames]; exact huo
  have hnd : ((oldSets g).map oldOf).Nodup := List.Nodup.of_map _ hnn
  obtain ⟨h1', _, _, h4'⟩ := Rollback.C18_cleanup e.cleanupSort hs e.cleanupFails d.limit ((oldSets g).map oldOf) hnd
  generalize hall : (Rollback.cleanup e.cleanupSort e.cleanupFails d.limit ((oldSets g).map oldOf)).deleted = all at h1' h4'
  generalize hdel : (all.filter fun o => !(e.cleanupFails o && e.cleanupLost o)) = del
  have hsubs : ∀ o ∈ del, o ∈ all := fun o ho => (List.mem_filter.1 (hdel ▸ ho)).1
  have h1 := fun o ho => h1' o (hsubs o ho)
  have h4 := fun o ho => h4' o (hsubs o ho)
  have hcl : ∀ l, cleanup d e (oldSets g) l = l.map fun f => if del.any fun o => o.name == f.set.name then { f with deleting := true } else f := by
    intro l; unfold cleanup; rw [hall, hdel]
  rw [hcl]
  -- a set that is kept
  have hkept : ∀ x ∈ oldSets g, x.deleting = false → oldOf x ∉ del →
      ∀ y ∈ l.map (fun f => if del.any fun o => o.name == f.set.name then { f with deleting := true } else f), y.set.name = x.set.name → y.deleting = false := by
    intro x hx hxd hxn y hy hyn
    obtain ⟨a, ha, rfl⟩ := List.mem_map.1 hy
    have han : a.set.name = x.set.name := by
      split at hyn <;> exact hyn
    have hno : (del.any fun o => o.name == a.set.name) = false := by
      rw [List.any_eq_false]
      intro o ho hoa
      have hoa : o.name = a.set.name := by simpa using hoa
      obtain ⟨z, hz, rfl⟩ := List.mem_map.1 (h1 o ho).1
      have : z = x := unique_eq _ huo z x hz hx (hoa.trans han)
      exact hxn (this ▸ ho)
    rw [if_neg (by rw [hno]; decide)]
    obtain ⟨b, hb, hbn, hbd⟩ := hc a ha
    have hbo : b ∈ oldSets g := h.back he b hb x hx (by rw [hbn, han])
    have : b = x := unique_eq _ huo b x hbo hx (hbn.trans han)
    rw [← hbd, this, hxd]
  intro f hf hd
  obtain ⟨a, ha, rfl⟩ := List.mem_map.1 hf
  by_cases hany : (del.any fun o => o.name == a.set.name) = true
  · right
    refine ⟨hw, ?_⟩
    obtain ⟨o, ho, hoa⟩ := List.any_eq_true.1 hany
    have hoa : o.name = a.set.name := by simpa using hoa
    obtain ⟨x, hx, rfl⟩ := List.mem_map.1 (h1 o ho).1
    have hi := (h1 _ ho).2
    refine ⟨x, hsub.subset hx, ?_, h.cur he x hx, hi.1, hi.2.1, hi.2.2.1, ?_⟩
    · rw [if_pos hany]; exact hoa
    · obtain ⟨k, newer, hk, hnsub, hlen, hnew⟩ := h4 _ ho
      have hmem : ∀ w ∈ newer, ∃ y ∈ oldSets g, oldOf y = w ∧ y.deleting = false := by
        intro w hw
        have := (hs ((List.map oldOf (oldSets g)).filter fun s => !s.deleting)).1.subset (hnsub.subset hw)
        obtain ⟨hw1, hw2⟩ := List.mem_filter.1 this
        obtain ⟨y, hy, rfl⟩ := List.mem_map.1 hw1
        exact ⟨y, hy, rfl, by simpa [oldOf] using hw2⟩
      refine ⟨k, newer.map (·.name), hk, by rw [List.length_map, hlen], ?_, ?_⟩
      · have hp := (hs ((List.map oldOf (oldSets g)).filter fun s => !s.deleting)).1.map (·.name)
        exact (hnsub.map _).nodup (hp.nodup_iff.2 ((List.filter_sublist.map _).nodup hnn))
      · intro n hn
        obtain ⟨w, hw, rfl⟩ := List.mem_map.1 hn
        obtain ⟨y, hy, rfl, hyd⟩ := hmem w hw
        exact ⟨y, hsub.subset hy, rfl, (hnew _ hw).1, hyd, hkept y hy hyd fun hd => (hnew _ hw).2 (hsubs _ hd)⟩
  · left
    rw [if_neg hany] at hd ⊢
    obtain ⟨x, hx, hn, hx'⟩ := hc a ha
    rcases h.rest x hx (hx'.trans hd) with ⟨y, hy, h1, h2⟩ | ⟨y, hy, h1, h2⟩
    · exact .inl ⟨y, hy, h1.trans hn, h2⟩
    · exact .inr ⟨y, hy, h1.trans hn, h2⟩

theorem sync_deletes {d : FDep} {e : Env} {sets : List FSet} (hu : Unique sets) (hs : Rollback.Sorts e.cleanupSort) :
    Deletes d e sets (sync d e sets) := by
  have hr := getNew_read d e false sets
  unfold sync
  dsimp only
  split
  · exact .of_read hr
  · rename_i he
    split
    · exact .comes hr (resize_comes _ _)
    · unfold pausedCleanup
      split
      · rename_i hp
        rw [Bool.and_eq_true] at hp
        exact cleaned hu hs hr (by simpa using he) (resize_comes _ _) (.inl ⟨hp.1, by simpa using hp.2⟩)
      · exact .comes hr (resize_comes _ _)

theorem rolloutCleanup_deletes {d : FDep} {e : Env} {sets : List FSet} (hu : Unique sets) (hs : Rollback.Sorts e.cleanupSort)
    {g : Got} (h : Read d e sets g) (he : g.err = false) {l : List FSet} (hc : Comes g.sets l) : Deletes d e sets (rolloutCleanup d e (oldSets g) l) := by
  unfold rolloutCleanup
  split
  · rename_i hr
    exact cleaned hu hs h he hc (.inr hr)
  · exact .comes h hc

theorem rolling_deletes {d : FDep} {e : Env} {sets : List FSet} (hu : Unique sets) (hs : Rollback.Sorts e.cleanupSort) :
    Deletes d e sets (rolloutRolling d e sets) := by
  have hr := getNew_read d e true sets
  unfold rolloutRolling
  dsimp only
  split
  · exact .of_read hr
  · rename_i he
    split
    · exact .of_read hr
    · exact rolloutCleanup_deletes hu hs hr (by simpa using he) (resizeMS_comes _ _ _)

theorem recreate_deletes {d : FDep} {e : Env} {sets : List FSet} (hu : Unique sets) (hs : Rollback.Sorts e.cleanupSort) :
    Deletes d e sets (rolloutRecreate d e sets) := by
  have hr := getNew_read d e false sets
  unfold rolloutRecreate
  extract_lets g v wait g2 r
  split
  · exact .of_read hr
  · rename_i he
    have h2 : Read d e sets g2 := by
      by_cases hc : (g.new.isNone && !wait) = true
      · have h2 : g2 = getNew d e true g.sets := if_pos hc
        have hn : g.new = none := by
          cases hx : g.new with
          | none => rfl
          | some n => rw [hx] at hc; simp at hc
        rw [h2, getNew_twice d e sets hn (by simpa using he)]
        exact getNew_read d e true sets
      · have h2 : g2 = g := if_neg hc
        rw [h2]; exact hr
    split
    · exact .of_read h2
    · rename_i he2
      exact rolloutCleanup_deletes hu hs h2 (by simpa using he2) (resize_comes _ _)

/-- **C18** for whole runs: whatever the run of the deployment controller does – scaling, rolling, recreating, rolling back or nothing – and whatever fails, it deletes only
old sets without machines beyond the history limit, oldest first, and only when the deployment is paused or its rollout is complete. -/
theorem C18_run (d : FDep) (e : Env) (sets : List FSet) (hd : d.deleting = false) (hu : Unique sets) (hs : Rollback.Sorts e.cleanupSort) :
    Deletes d e sets (reconcile d e sets).sets := by
  have hsame : Deletes d e sets sets := fun f hf hd => .inl (.inl ⟨f, hf, rfl, hd⟩)
  unfold reconcile
  split
  · exact hsame
  · split
    · exact hsame
    · split
      · exact hsame
      · rw [if_neg (by rw [hd]; decide)]
        split
        · exact hsame
        · split
          · exact sync_deletes hu hs
          · split
            · rename_i rv _
              unfold rollback
              dsimp only
              split <;> exact .of_read (getNew_read d e true sets)
            · show Deletes d e sets (scaleOrRoll d e sets)
              unfold scaleOrRoll
              dsimp only
              split
              · exact .of_read (getNew_read d e false sets)
              · split
                · exact sync_deletes hu hs
                · split
                  · exact recreate_deletes hu hs
                  · exact rolling_deletes hu hs
                  · exact hsame

/-! ## A concrete case -/

/-- three old sets, one with a machine, and the current one; the history limit is one -/
def fourSets : List FSet :=
  [{ set := { name := "a", spec := 0, creation := 1 }, tmpl := { body := "1" } }, { set := { name := "b", spec := 1, creation := 2 }, tmpl := { body := "2" }, status := 1 },
   { set := { name := "c", spec := 0, creation := 3 }, tmpl := { body := "3" } }, { set := { name := "d", spec := 3, creation := 4 }, tmpl := { body := "4" }, status := 3 }]

/-- the oldest set goes; the second one has a machine and stays, the third is within the limit -/
example : let d : FDep := { spec := { replicas := 4, maxSurge := some (.int 1), maxUnavailable := some (.int 1) }, template := { body := "4" }, paused := true, limit := some 1 }
    ((reconcile d {} fourSets).sets.map fun f => (f.set.name, f.deleting)) = [("a", true), ("b", false), ("c", false), ("d", false)] ∧
    ((reconcile { d with paused := false } {} fourSets).sets.map fun f => (f.set.name, f.deleting)) = [("a", false), ("b", false), ("c", false), ("d", false)] := by
  decide +kernel

end MCM.Dispatch
