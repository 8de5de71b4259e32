import Verif.Props.Rest
/-!
# C138 – the budgets of a rolling update matter only during a rolling update

docs/FAQ.md:107-113: maxSurge and maxUnavailable "are applicable only during the rollout process and means nothing in general scale up/down scenarios".
-/
namespace MCM.Outside
open MCM MCM.Template MCM.Dispatch

/-! ## Independent specification -/

/-- names and sizes of the sets -/
def sizes (l : List FSet) : List (String × Int) := l.map fun f => (f.set.name, f.set.spec)

/-- the same with another size for one of them -/
def withCur (name : String) (n : Int) (s : List (String × Int)) : List (String × Int) := s.map fun p => if p.1 = name then (p.1, n) else p

/-- No rollout is going on: `c` is the set of the template, and no other set is to have machines. -/
structure Single (d : FDep) (l : List FSet) (c : FSet) : Prop where
  unique : (l.map (·.set.name)).Nodup
  cur : l.find? (fun f => equalIgnoreHash f.tmpl d.template) = some c
  others : ∀ f ∈ l, f.set.name ≠ c.set.name → f.set.spec = 0

/-- the size of the deployment was changed: the set still carries the former one, or it is empty -/
def Asked (d : FDep) (c : FSet) : Prop :=
  (c.set.spec = 0 ∧ 0 < d.spec.replicas) ∨ (0 < c.set.spec ∧ ∃ t v, c.set.desired = some t ∧ atoi t = some v ∧ v ≠ d.spec.replicas)

/-- all calls of the run succeed -/
structure Undisturbed (e : Env) : Prop where
  valid : e.valid = true
  listOk : e.listOk = true
  preOk : e.preOk = true
  setOk : e.setOk = true
  depOk : e.depOk = true
  scaleOk : ∀ s, e.scale.ok s = true
  rollOk : e.rolling.okNew = true
  rollPre : e.rolling.preOk = true

/-- the deployment is not deleted, not rolled back, and has a selector -/
structure Plain (d : FDep) : Prop where
  alive : d.deleting = false
  selects : d.selectsAll = false
  noRollback : d.rollbackTo = none

/-- a size between the present and the wanted one -/
def Between (a b n : Int) : Prop := min a b ≤ n ∧ n ≤ max a b

/-! ## Lemmas -/

theorem between_left (a b : Int) : Between a b a := ⟨by omega, by omega⟩
theorem between_right (a b : Int) : Between a b b := ⟨by omega, by omega⟩

/-- what the rest of a run needs to know -/
structure Only (l : List FSet) (c : FSet) : Prop where
  unique : Dispatch.Unique l
  mem : c ∈ l
  others : ∀ f ∈ l, f.set.name ≠ c.set.name → f.set.spec = 0

theorem Single.only {d : FDep} {l : List FSet} {c : FSet} (h : Single d l c) : Only l c := ⟨h.unique, List.mem_of_find?_eq_some h.cur, h.others⟩

theorem sizes_map (l : List FSet) (g : FSet → FSet) (c : FSet) (n : Int) (h : ∀ f ∈ l, (g f).set.name = f.set.name ∧ (g f).set.spec = if f.set.name = c.set.name then n else f.set.spec) :
    sizes (l.map g) = withCur c.set.name n (sizes l) := by
  unfold sizes withCur
  rw [List.map_map, List.map_map]
  refine List.map_congr_left fun f hf => ?_
  obtain ⟨h1, h2⟩ := h f hf
  simp only [Function.comp]
  rw [h1, h2]
  split <;> rfl

theorem sizes_keep (l : List FSet) (g : FSet → FSet) (h : ∀ f ∈ l, (g f).set.name = f.set.name ∧ (g f).set.spec = f.set.spec) : sizes (l.map g) = sizes l := by
  unfold sizes
  rw [List.map_map]
  refine List.map_congr_left fun f hf => ?_
  obtain ⟨h1, h2⟩ := h f hf
  simp only [Function.comp]
  rw [h1, h2]

theorem sizes_same {l : List FSet} {c : FSet} (h : Only l c) : sizes l = withCur c.set.name c.set.spec (sizes l) := by
  have := sizes_map l id c c.set.spec fun f hf => ⟨rfl, by
    split
    · rename_i hn; rw [unique_eq l h.unique f c hf h.mem hn]; rfl
    · rfl⟩
  rw [List.map_id] at this
  exact this

theorem sizes_cleanup (d : FDep) (e : Env) (old l : List FSet) : sizes (cleanup d e old l) = sizes l := by
  unfold cleanup
  exact sizes_keep _ _ fun f _ => by split <;> exact ⟨rfl, rfl⟩

theorem sizes_rolloutCleanup (d : FDep) (e : Env) (old l : List FSet) : sizes (rolloutCleanup d e old l) = sizes l := by
  unfold rolloutCleanup
  split
  · exact sizes_cleanup ..
  · rfl

theorem sizes_pausedCleanup (d : FDep) (e : Env) (old l : List FSet) : sizes (pausedCleanup d e old l) = sizes l := by
  unfold pausedCleanup
  split
  · exact sizes_cleanup ..
  · rfl

theorem sizes_terminate (e : Env) (l : List FSet) : sizes (terminate e l) = sizes l := by
  unfold terminate
  exact sizes_keep _ _ fun f _ => by split <;> exact ⟨rfl, rfl⟩

/-- new sizes from a list of sets by name -/
theorem sizes_resize {l : List FSet} {c : FSet} (n : Int) (r : List Scale.MSet) (h1 : ∀ f ∈ l, ∀ s ∈ r, s.name = f.set.name → s.spec = if f.set.name = c.set.name then n else f.set.spec)
    (h2 : ∃ s ∈ r, s.name = c.set.name) : sizes (resize l r) = withCur c.set.name n (sizes l) := by
  unfold resize
  refine sizes_map l _ c n fun f hf => ?_
  cases hfind : r.find? (fun s => s.name == f.set.name) with
  | some s =>
    have hn : s.name = f.set.name := by simpa using List.find?_some hfind
    exact ⟨hn, h1 f hf s (List.mem_of_find?_eq_some hfind) hn⟩
  | none =>
    refine ⟨rfl, ?_⟩
    dsimp only
    rw [if_neg]
    intro hc
    obtain ⟨s, hs, hn⟩ := h2
    have := List.find?_eq_none.1 hfind s hs
    rw [hn, hc] at this
    simp at this

theorem sizes_resizeMS {l : List FSet} {c : FSet} (d : Rolling.Dep) (n : Int) (r : List Rolling.MS)
    (h1 : ∀ f ∈ l, ∀ s ∈ r, s.name = f.set.name → s.spec = if f.set.name = c.set.name then n else f.set.spec)
    (h2 : ∃ s ∈ r, s.name = c.set.name) : sizes (resizeMS d l r) = withCur c.set.name n (sizes l) := by
  unfold resizeMS
  refine sizes_map l _ c n fun f hf => ?_
  cases hfind : r.find? (fun s => s.name == f.set.name) with
  | some s =>
    have hn : s.name = f.set.name := by simpa using List.find?_some hfind
    dsimp only
    rw [← h1 f hf s (List.mem_of_find?_eq_some hfind) hn]
    unfold withSize
    split
    · rename_i h; exact ⟨rfl, h⟩
    · exact ⟨rfl, rfl⟩
  | none =>
    refine ⟨rfl, ?_⟩
    dsimp only
    rw [if_neg]
    intro hc
    obtain ⟨s, hs, hn⟩ := h2
    have := List.find?_eq_none.1 hfind s hs
    rw [hn, hc] at this
    simp at this

theorem old_zero {l : List FSet} {c : FSet} (h : Only l c) : ∀ s ∈ (Dispatch.others l c.set.name).map (·.set), ¬ s.spec > 0 := by
  intro s hs
  obtain ⟨f, hf, rfl⟩ := List.mem_map.1 hs
  obtain ⟨h1, h2⟩ := Dispatch.mem_others.1 hf
  rw [h.others f h1 h2]
  decide

/-- scaling when only one set is to have machines -/
theorem scale_only {l : List FSet} {c : FSet} (h : Only l c) (d : Rolling.Dep) (e : Scale.Env) (hs : ∀ l, (e.srtNewest l).Perm l) :
    ∃ n, sizes (resize l (Scale.scale d e ((Dispatch.others l c.set.name).map (·.set)) (some c.set)).1) = withCur c.set.name n (sizes l) ∧ (n = c.set.spec ∨ n = d.replicas) ∧
      (e.ok c.set = true → n = d.replicas) := by
  have hact : Scale.findActiveOrLatest e ((Dispatch.others l c.set.name).map (·.set)) (some c.set) = some c.set := by
    unfold Scale.findActiveOrLatest Scale.active
    rw [List.filter_append, List.filter_eq_nil_iff.2 (by
      intro s hs'
      have := old_zero h s ((hs _).mem_iff.1 hs')
      simpa using this), List.nil_append]
    by_cases hp : c.set.spec > 0
    · rw [show List.filter _ (some c.set).toList = [c.set] by simp [hp]]
    · rw [show List.filter _ (some c.set).toList = [] by simp [hp]]
  unfold Scale.scale
  dsimp only
  rw [hact]
  dsimp only
  generalize hs' : (if c.set.spec = d.replicas then Scale.scaleSet d (e.ok c.set) c.set d.replicas else Scale.scaleSetEv d (e.ok c.set) c.set d.replicas).1 = s'
  have key : s'.name = c.set.name ∧ (s'.spec = c.set.spec ∨ s'.spec = d.replicas) ∧ (e.ok c.set = true → s'.spec = d.replicas) := by
    rw [← hs']
    unfold Scale.scaleSetEv Scale.scaleSet
    by_cases hz : c.set.spec = d.replicas
    · rw [if_pos hz]
      split
      · split
        · exact ⟨rfl, .inr rfl, fun _ => rfl⟩
        · exact ⟨rfl, .inl rfl, fun _ => hz⟩
      · exact ⟨rfl, .inl rfl, fun _ => hz⟩
    · rw [if_neg hz, if_neg hz, if_pos (.inl hz)]
      split
      · exact ⟨rfl, .inr rfl, fun _ => rfl⟩
      · rename_i ho; exact ⟨rfl, .inl rfl, fun hok => absurd hok ho⟩
  refine ⟨s'.spec, sizes_resize s'.spec _ ?_ ?_, key.2⟩
  · intro f hf s hsm hn
    unfold Scale.replaceSet at hsm
    obtain ⟨x, hx, rfl⟩ := List.mem_map.1 hsm
    by_cases hxn : x.name = s'.name
    · rw [if_pos hxn] at hn ⊢
      rw [if_pos (by rw [← hn, key.1])]
    · rw [if_neg hxn] at hn ⊢
      rw [key.1] at hxn
      rw [if_neg (by rw [← hn]; exact hxn)]
      rcases List.mem_append.1 hx with hx | hx
      · obtain ⟨y, hy, rfl⟩ := List.mem_map.1 hx
        rw [unique_eq l h.unique y f (Dispatch.mem_others.1 hy).1 hf hn]
      · have : x = c.set := by simpa using hx
        exact absurd (by rw [this]) hxn
  · unfold Scale.replaceSet
    exact ⟨s', List.mem_map.2 ⟨c.set, by simp, if_pos key.1.symm⟩, key.1⟩

/-- looking for the current set -/
theorem getNew_single {d : FDep} {l : List FSet} {c : FSet} (h : Single d l c) (e : Env) (b : Bool) :
    sizes (getNew d e b l).sets = sizes l ∧
    ((getNew d e b l).err = true ∨ ((getNew d e b l).err = false ∧ ∃ c', c'.set = c.set ∧ Only (getNew d e b l).sets c' ∧ curSet (getNew d e b l) = some c' ∧
      oldSets (getNew d e b l) = Dispatch.others (getNew d e b l).sets c'.set.name)) := by
  have hm := h.only.mem
  rw [getNew_cur h.cur]
  cases hw : toWrite d l c with
  | true =>
    rw [sync_write hw]
    cases e.setOk with
    | false => exact ⟨rfl, .inl rfl⟩
    | true =>
      rw [if_pos rfl]
      have hset : (written d l c).set = c.set := rfl
      have hsz : sizes (writeCur d l c) = sizes l := by
        unfold writeCur
        exact sizes_keep _ _ fun f hf => by
          split
          · rename_i hn
            have hn : f.set.name = c.set.name := by simpa using hn
            rw [hset, unique_eq l h.unique f c hf hm hn]
            exact ⟨rfl, rfl⟩
          · exact ⟨rfl, rfl⟩
      have hu : Dispatch.Unique (writeCur d l c) := by
        have h1 := h.unique
        unfold Dispatch.Unique
        have e1 : ∀ x : List FSet, x.map (·.set.name) = (sizes x).map Prod.fst := fun x => by unfold sizes; rw [List.map_map]; rfl
        rw [e1, hsz, ← e1]; exact h1
      have hmem : written d l c ∈ writeCur d l c := by
        unfold writeCur
        exact List.mem_map.2 ⟨c, hm, by rw [if_pos (by simp)]⟩
      refine ⟨hsz, .inr ⟨rfl, written d l c, hset, ⟨hu, hmem, ?_⟩, ?_, rfl⟩⟩
      · intro f hf hn
        unfold writeCur at hf
        obtain ⟨x, hx, rfl⟩ := List.mem_map.1 hf
        split at hn
        · exact absurd rfl hn
        · rename_i hxn
          rw [if_neg hxn]
          exact h.others x hx (by simpa using hxn)
      · have := curSet_eq hu hmem
        rw [hset] at this
        unfold curSet at this ⊢
        exact this
  | false =>
    rw [sync_rest hw]
    cases e.depOk with
    | false => exact ⟨rfl, .inl rfl⟩
    | true => exact ⟨rfl, .inr ⟨rfl, c, rfl, h.only, curSet_eq h.unique hm, rfl⟩⟩

theorem sync_single {d : FDep} {l : List FSet} {c : FSet} (h : Single d l c) (e : Env) (hs : ∀ l, (e.scale.srtNewest l).Perm l) :
    ∃ n, sizes (sync d e l) = withCur c.set.name n (sizes l) ∧ (n = c.set.spec ∨ n = d.spec.replicas) ∧ (Undisturbed e → n = d.spec.replicas) := by
  obtain ⟨h1, h2⟩ := getNew_single h e false
  unfold sync
  dsimp only
  rcases h2 with h2 | ⟨h2, c', hc, ho, k1, k2⟩
  · refine ⟨c.set.spec, by rw [if_pos h2, h1]; exact sizes_same h.only, .inl rfl, fun hu => ?_⟩
    exfalso
    rw [getNew_cur h.cur] at h2
    cases hw : toWrite d l c with
    | true => rw [sync_write hw, hu.setOk] at h2; cases h2
    | false => rw [sync_rest hw, hu.depOk] at h2; cases h2
  · rw [if_neg (by simp [h2]), k1, k2, Option.map_some]
    obtain ⟨n, a, b, f⟩ := scale_only ho d.spec e.scale hs
    rw [h1, hc] at a
    rw [hc] at b f
    rw [hc] at *
    refine ⟨n, ?_, b, fun hu => f (hu.scaleOk _)⟩
    split
    · exact a
    · rw [sizes_pausedCleanup]; exact a

theorem rolling_single {d : FDep} {l : List FSet} {c : FSet} (h : Single d l c) (e : Env) :
    ∃ n, sizes (rolloutRolling d e l) = withCur c.set.name n (sizes l) ∧ Between c.set.spec d.spec.replicas n ∧
      (Undisturbed e → d.spec.strategy = .rolling → (∀ f ∈ l, f.status ≤ f.set.spec) → (∃ s, 0 ≤ s ∧ Rolling.scaledValue d.spec.maxSurge d.spec.replicas true = some s) →
        toWrite d l c = false → n = d.spec.replicas) := by
  obtain ⟨h1, h2⟩ := getNew_single h e true
  unfold rolloutRolling
  dsimp only
  rcases h2 with h2 | ⟨h2, c', hc, ho, k1, k2⟩
  · refine ⟨c.set.spec, by rw [if_pos h2, h1]; exact sizes_same h.only, between_left .., fun hu _ _ _ _ => ?_⟩
    exfalso
    rw [getNew_cur h.cur] at h2
    cases hw : toWrite d l c with
    | true => rw [sync_write hw, hu.setOk] at h2; cases h2
    | false => rw [sync_rest hw, hu.depOk] at h2; cases h2
  · rw [if_neg (by simp [h2]), k1, k2]
    dsimp only
    have hsame : toWrite d l c = false → Undisturbed e → (getNew d e true l).sets = l ∧ c' = c := by
      intro hw hu
      have hg : getNew d e true l = { sets := l, new := some c.set.name } := by rw [getNew_cur h.cur, sync_rest hw, hu.depOk]; rfl
      rw [hg] at k1 ⊢
      rw [curSet_eq h.unique h.only.mem] at k1
      exact ⟨rfl, (Option.some.inj k1).symm⟩
    generalize (getNew d e true l).sets = l' at *
    have hold : ∀ s ∈ (Dispatch.others l' c'.set.name).map msOf, ¬ s.spec > 0 := by
      intro s hs
      obtain ⟨f, hf, rfl⟩ := List.mem_map.1 hs
      exact old_zero ho f.set (List.mem_map.2 ⟨f, hf, rfl⟩)
    have hstep : ∃ n, Rolling.rolloutStep d.spec e.rolling ((Dispatch.others l' c'.set.name).map msOf) (msOf c') = ((Dispatch.others l' c'.set.name).map msOf, { msOf c' with spec := n }) ∧
        Between c.set.spec d.spec.replicas n ∧ (Undisturbed e → d.spec.strategy = .rolling → (∀ f ∈ l', f.status ≤ f.set.spec) →
          (∃ s, 0 ≤ s ∧ Rolling.scaledValue d.spec.maxSurge d.spec.replicas true = some s) → n = d.spec.replicas) := by
      unfold Rolling.rolloutStep
      split
      · rename_i hp
        refine ⟨c.set.spec, by rw [← hc]; rfl, between_left .., fun hu => ?_⟩
        rw [hu.rollPre] at hp; cases hp
      · have f1 : ((Dispatch.others l' c'.set.name).map msOf).filter (fun s => decide (s.spec > 0)) = [] := by
          rw [List.filter_eq_nil_iff]; intro s hs; simpa using hold s hs
        have f2 : ((Dispatch.others l' c'.set.name).map msOf).filter (fun s => !(decide (s.spec > 0))) = (Dispatch.others l' c'.set.name).map msOf := by
          rw [List.filter_eq_self]; intro s hs; simpa using hold s hs
        have hnew : ∃ n, (Rolling.reconcileNew d.spec e.rolling.okNew ((Dispatch.others l' c'.set.name).map msOf ++ [msOf c']) (msOf c')).1 = { msOf c' with spec := n } ∧
            Between c.set.spec d.spec.replicas n ∧ (Undisturbed e → d.spec.strategy = .rolling → (∀ f ∈ l', f.status ≤ f.set.spec) →
              (∃ s, 0 ≤ s ∧ Rolling.scaledValue d.spec.maxSurge d.spec.replicas true = some s) → n = d.spec.replicas) := by
          have hspec : (msOf c').spec = c.set.spec := by rw [← hc]; rfl
          have hto : ∀ (ok : Bool) (n : Int), Between c.set.spec d.spec.replicas n →
              ∃ m, (Rolling.scaleTo ok (msOf c') n).1 = { msOf c' with spec := m } ∧ Between c.set.spec d.spec.replicas m ∧ (ok = true → m = n) := by
            intro ok n hb
            unfold Rolling.scaleTo
            split
            · rename_i hn
              exact ⟨(msOf c').spec, rfl, by rw [hspec]; exact between_left .., fun _ => hn⟩
            · cases ok with
              | true => exact ⟨n, rfl, hb, fun _ => rfl⟩
              | false => exact ⟨(msOf c').spec, rfl, by rw [hspec]; exact between_left .., fun h => by cases h⟩
          unfold Rolling.reconcileNew
          rw [hspec]
          split
          · rename_i hn
            exact ⟨c.set.spec, by rw [← hspec], between_left .., fun _ _ _ _ => hn⟩
          · split
            · obtain ⟨m, m1, m2, m3⟩ := hto e.rolling.okNew d.spec.replicas (between_right ..)
              exact ⟨m, m1, m2, fun hu _ _ _ => m3 hu.rollOk⟩
            · rename_i hne hle
              cases hnr : Rolling.newReplicas d.spec ((Dispatch.others l' c'.set.name).map msOf ++ [msOf c']) (msOf c') with
              | none =>
                refine ⟨c.set.spec, by rw [← hspec], between_left .., fun _ hr _ hs => ?_⟩
                exfalso
                obtain ⟨s, _, hs⟩ := hs
                unfold Rolling.newReplicas at hnr
                rw [hr] at hnr
                dsimp only at hnr
                rw [hs] at hnr
                dsimp only at hnr
                split at hnr <;> cases hnr
              | some n =>
                have hn : Between c.set.spec d.spec.replicas n ∧ (d.spec.strategy = .rolling → (∀ f ∈ l', f.status ≤ f.set.spec) →
                    (∃ s, 0 ≤ s ∧ Rolling.scaledValue d.spec.maxSurge d.spec.replicas true = some s) → n = d.spec.replicas) := by
                  unfold Rolling.newReplicas at hnr
                  rw [hspec] at hnr
                  split at hnr
                  · split at hnr
                    · cases hnr
                    · rename_i surge hsurge
                      dsimp only at hnr
                      have hsum : (∀ f ∈ l', f.status ≤ f.set.spec) → Rolling.statusSum ((Dispatch.others l' c'.set.name).map msOf ++ [msOf c']) ≤ c.set.spec := by
                        intro hst
                        unfold Rolling.statusSum
                        rw [List.map_append, List.sum_append]
                        have hz : (((Dispatch.others l' c'.set.name).map msOf).map (·.status)).sum ≤ 0 := by
                          rw [List.map_map]
                          have : ∀ x : List FSet, (∀ f ∈ x, f.status ≤ 0) → (x.map ((·.status) ∘ msOf)).sum ≤ 0 := by
                            intro x
                            induction x with
                            | nil => intro _; simp
                            | cons a x ih =>
                              intro hx
                              rw [List.map_cons, List.sum_cons]
                              have i1 := hx a (by simp)
                              have i2 := ih fun f hf => hx f (List.mem_cons_of_mem _ hf)
                              have i3 : ((fun x : Rolling.MS => x.status) ∘ msOf) a = a.status := rfl
                              omega
                          refine this _ fun f hf => ?_
                          obtain ⟨j1, j2⟩ := Dispatch.mem_others.1 hf
                          have := hst f j1
                          rw [ho.others f j1 j2] at this
                          exact this
                        have hcs := hst c' ho.mem
                        rw [hc] at hcs
                        have : ([msOf c'].map (·.status)).sum = c'.status := by simp [msOf]
                        omega
                      split at hnr
                      · rename_i hge
                        obtain rfl := Option.some.inj hnr
                        refine ⟨between_left .., fun _ hst hs => ?_⟩
                        exfalso
                        obtain ⟨s, s0, hs⟩ := hs
                        rw [hsurge] at hs
                        obtain rfl := Option.some.inj hs
                        have := hsum hst
                        omega
                      · rename_i hlt
                        obtain rfl := Option.some.inj hnr
                        refine ⟨⟨by omega, by omega⟩, fun _ hst hs => ?_⟩
                        obtain ⟨s, s0, hs⟩ := hs
                        rw [hsurge] at hs
                        obtain rfl := Option.some.inj hs
                        have := hsum hst
                        omega
                  · obtain rfl := Option.some.inj hnr
                    exact ⟨between_right .., fun _ _ _ => rfl⟩
                  · cases hnr
                obtain ⟨m, m1, m2, m3⟩ := hto e.rolling.okNew n hn.1
                exact ⟨m, m1, m2, fun hu hr hst hs => (m3 hu.rollOk).trans (hn.2 hr hst hs)⟩
        obtain ⟨n, n1, n2, n3⟩ := hnew
        refine ⟨n, ?_, n2, n3⟩
        generalize Rolling.reconcileNew d.spec e.rolling.okNew ((Dispatch.others l' c'.set.name).map msOf ++ [msOf c']) (msOf c') = p at n1 ⊢
        obtain ⟨p1, p2, p3⟩ := p
        dsimp only at n1 ⊢
        rw [n1]
        split
        · rfl
        · rw [f1, f2]
          unfold Rolling.reconcileOld
          rw [if_pos (by rfl), List.append_nil]
    obtain ⟨n, n1, n2, n3⟩ := hstep
    refine ⟨n, ?_, n2, fun hu hr hst hs hw => ?_⟩
    · rw [n1]
      dsimp only
      rw [sizes_rolloutCleanup, ← h1, ← hc]
      refine sizes_resizeMS d.spec n _ ?_ ⟨{ msOf c' with spec := n }, by simp, rfl⟩
      intro f hf s hs hsn
      rcases List.mem_append.1 hs with hs | hs
      · obtain ⟨x, hx, rfl⟩ := List.mem_map.1 hs
        obtain ⟨x1, x2⟩ := Dispatch.mem_others.1 hx
        have hxf := unique_eq l' ho.unique x f x1 hf hsn
        rw [← hxf, if_neg x2]; rfl
      · obtain rfl := List.mem_singleton.1 hs
        rw [if_pos (show f.set.name = c'.set.name from hsn.symm)]
    · obtain ⟨q1, q2⟩ := hsame hw hu
      subst q1
      exact n3 hu hr hst hs

theorem recreate_single {d : FDep} {l : List FSet} {c : FSet} (h : Single d l c) (e : Env) :
    ∃ n, sizes (rolloutRecreate d e l) = withCur c.set.name n (sizes l) ∧ (n = c.set.spec ∨ n = d.spec.replicas) ∧
      (Undisturbed e → (∀ f ∈ l, f.status ≤ f.set.spec) → (∀ f ∈ l, f.set.name ≠ c.set.name → e.machines f.set.name = 0) → toWrite d l c = false → n = d.spec.replicas) := by
  obtain ⟨h1, h2⟩ := getNew_single h e false
  unfold rolloutRecreate
  dsimp only
  rcases h2 with h2 | ⟨h2, c', hc, ho, k1, k2⟩
  · refine ⟨c.set.spec, by rw [if_pos h2, h1]; exact sizes_same h.only, .inl rfl, fun hu _ _ _ => ?_⟩
    exfalso
    rw [getNew_cur h.cur] at h2
    cases hw : toWrite d l c with
    | true => rw [sync_write hw, hu.setOk] at h2; cases h2
    | false => rw [sync_rest hw, hu.depOk] at h2; cases h2
  · have hif : ∀ w : Bool, (if ((getNew d e false l).new.isNone && w) = true then getNew d e true (getNew d e false l).sets else getNew d e false l) =
        getNew d e false l := by
      intro w
      rw [if_neg]
      have : (getNew d e false l).new ≠ none := by
        intro hn
        unfold curSet at k1
        rw [hn] at k1
        cases k1
      cases hn : (getNew d e false l).new with
      | none => exact absurd hn this
      | some x => simp
    rw [if_neg (by simp [h2])]
    simp only [hif]
    rw [if_neg (by simp [h2]), k1, k2]
    have hsame : toWrite d l c = false → Undisturbed e → (getNew d e false l).sets = l ∧ c' = c := by
      intro hw hu
      have hg : getNew d e false l = { sets := l, new := some c.set.name } := by rw [getNew_cur h.cur, sync_rest hw, hu.depOk]; rfl
      rw [hg] at k1 ⊢
      rw [curSet_eq h.unique h.only.mem] at k1
      exact ⟨rfl, (Option.some.inj k1).symm⟩
    generalize (getNew d e false l).sets = l' at *
    generalize hst : (fun n => ((l.find? fun f => f.set.name == n).map (·.status)).getD 0) = st
    have key : ∃ s', Recreate.rolloutRecreate d.spec { scaleEnv := e.scale, created := (some c').map (·.set) }
        ⟨(Dispatch.others l' c'.set.name).map (·.set), (some c').map (·.set), st, e.machines⟩ = ((Dispatch.others l' c'.set.name).map (·.set), some s') ∧ s'.name = c'.set.name ∧
        (s'.spec = c'.set.spec ∨ s'.spec = d.spec.replicas) ∧ (Undisturbed e → (∀ f ∈ l, f.status ≤ f.set.spec) →
          (∀ f ∈ l, f.set.name ≠ c.set.name → e.machines f.set.name = 0) → toWrite d l c = false → s'.spec = d.spec.replicas) := by
      unfold Recreate.rolloutRecreate
      rw [if_neg (by simp)]
      dsimp only
      rw [if_neg (by unfold Scale.active; rw [List.filter_eq_nil_iff.2 (by intro s hs; simpa using old_zero ho s hs)]; simp)]
      split
      · rename_i hrun
        refine ⟨c'.set, rfl, rfl, .inl rfl, fun hu hst' hm hw => ?_⟩
        exfalso
        obtain ⟨q1, q2⟩ := hsame hw hu
        subst q1 q2
        unfold Recreate.oldMachinesRunning at hrun
        dsimp only at hrun
        split at hrun
        · rename_i hpos
          have : ∀ x : List FSet, (∀ f ∈ x, f ∈ l' ∧ f.set.name ≠ c'.set.name) → ((x.map (·.set)).map fun s => st s.name).sum ≤ 0 := by
            intro x
            induction x with
            | nil => intro _; simp
            | cons a x ih =>
              intro hx
              rw [List.map_cons, List.map_cons, List.sum_cons]
              have i2 := ih fun f hf => hx f (List.mem_cons_of_mem _ hf)
              obtain ⟨a1, a2⟩ := hx a (by simp)
              have i3 : st a.set.name ≤ 0 := by
                rw [← hst]
                dsimp only
                cases hf : l'.find? fun f => f.set.name == a.set.name with
                | none => simp
                | some b =>
                  have hb := List.mem_of_find?_eq_some hf
                  have hbn : b.set.name = a.set.name := by simpa using List.find?_some hf
                  have := hst' b hb
                  rw [ho.others b hb (by rw [hbn]; exact a2)] at this
                  simpa using this
              omega
          have := this (Dispatch.others l' c'.set.name) fun f hf => Dispatch.mem_others.1 hf
          omega
        · obtain ⟨n, hn, hn2⟩ := List.any_eq_true.1 hrun
          split at hn2
          · cases hn2
          · rename_i hne
            have hn2 : e.machines n > 0 := by simpa using hn2
            rcases List.mem_append.1 hn with hn | hn
            · obtain ⟨s, hs, rfl⟩ := List.mem_map.1 hn
              obtain ⟨f, hf, rfl⟩ := List.mem_map.1 hs
              obtain ⟨f1, f2⟩ := Dispatch.mem_others.1 hf
              have := hm f f1 f2
              omega
            · simp at hn
              exact hne (by simp [hn])
      · dsimp only [Option.map_some]
        refine ⟨_, rfl, ?_⟩
        unfold Scale.scaleSetEv Scale.scaleSet
        split
        · rename_i hz; exact ⟨rfl, .inl rfl, fun _ _ _ _ => hz⟩
        · rename_i hz
          rw [if_pos (.inl hz)]
          split
          · exact ⟨rfl, .inr rfl, fun _ _ _ _ => rfl⟩
          · rename_i hk; exact ⟨rfl, .inl rfl, fun hu _ _ _ => absurd (hu.scaleOk _) hk⟩
    obtain ⟨s', s1, s2, s3, s4⟩ := key
    rw [s1]
    refine ⟨s'.spec, ?_, by rw [hc] at s3; exact s3, s4⟩
    dsimp only
    rw [sizes_rolloutCleanup, ← h1, ← hc]
    refine sizes_resize s'.spec _ ?_ ⟨s', by simp, s2⟩
    intro f hf s hs hsn
    rcases List.mem_append.1 hs with hs | hs
    · obtain ⟨x, hx, rfl⟩ := List.mem_map.1 hs
      obtain ⟨x1, x2⟩ := Dispatch.mem_others.1 hx
      have hxf := unique_eq l' ho.unique x f x1 hf hsn
      rw [← hxf, if_neg x2]
    · have : s = s' := by simpa using hs
      subst this
      rw [if_pos (by rw [← hsn]; exact s2)]

/-! ## Theorems -/

/-- Whatever the budgets and whatever fails: outside a rollout no other set is touched, and the set of the template gets a size between its present size and the one wanted. -/
theorem C138_between {d : FDep} {l : List FSet} {c : FSet} (h : Single d l c) (e : Env) (hs : ∀ l, (e.scale.srtNewest l).Perm l) :
    ∃ n, sizes (reconcile d e l).sets = withCur c.set.name n (sizes l) ∧ Between c.set.spec d.spec.replicas n := by
  have hstay : ∀ x : List FSet, sizes x = sizes l → ∃ n, sizes x = withCur c.set.name n (sizes l) ∧ Between c.set.spec d.spec.replicas n := by
    intro x hx
    exact ⟨c.set.spec, by rw [hx]; exact sizes_same h.only, between_left ..⟩
  have hor : ∀ n, (n = c.set.spec ∨ n = d.spec.replicas) → Between c.set.spec d.spec.replicas n := by
    rintro n (rfl | rfl)
    · exact between_left ..
    · exact between_right ..
  unfold reconcile
  split
  · exact hstay _ rfl
  split
  · exact hstay _ rfl
  split
  · exact hstay _ rfl
  split
  · refine hstay _ ?_
    unfold reconcileDeleting
    split
    · rfl
    · split
      · rfl
      · dsimp only
        have hS : Single d (terminate e l) (if e.deleteOk c.set.name then { c with deleting := true } else c) := by
          have hn : ∀ f : FSet, (if e.deleteOk f.set.name then { f with deleting := true } else f).set = f.set ∧ (if e.deleteOk f.set.name then { f with deleting := true } else f).tmpl = f.tmpl := by
            intro f; split <;> exact ⟨rfl, rfl⟩
          refine ⟨?_, ?_, ?_⟩
          · unfold terminate
            rw [List.map_map]
            have : (fun f : FSet => f.set.name) ∘ (fun f => if e.deleteOk f.set.name then { f with deleting := true } else f) = fun f => f.set.name := by
              funext f; simp only [Function.comp]; rw [(hn f).1]
            rw [this]; exact h.unique
          · unfold terminate
            rw [List.find?_map]
            have : (fun f : FSet => equalIgnoreHash f.tmpl d.template) ∘ (fun f => if e.deleteOk f.set.name then { f with deleting := true } else f) = fun f => equalIgnoreHash f.tmpl d.template := by
              funext f; simp only [Function.comp]; rw [(hn f).2]
            rw [this, h.cur]; rfl
          · intro f hf hne
            unfold terminate at hf
            obtain ⟨x, hx, rfl⟩ := List.mem_map.1 hf
            rw [(hn x).1, (hn c).1] at hne
            rw [(hn x).1]
            exact h.others x hx hne
        rw [(getNew_single hS e false).1, sizes_terminate]
  split
  · exact hstay _ rfl
  split
  · obtain ⟨n, a, b, _⟩ := sync_single h e hs
    exact ⟨n, a, hor n b⟩
  split
  · refine hstay _ ?_
    unfold rollback
    dsimp only
    split
    · exact (getNew_single h e true).1
    · exact (getNew_single h e true).1
  · dsimp only
    unfold scaleOrRoll
    dsimp only
    split
    · exact hstay _ (getNew_single h e false).1
    split
    · obtain ⟨n, a, b, _⟩ := sync_single h e hs
      exact ⟨n, a, hor n b⟩
    split
    · obtain ⟨n, a, b, _⟩ := recreate_single h e
      exact ⟨n, a, hor n b⟩
    · obtain ⟨n, a, b, _⟩ := rolling_single h e
      exact ⟨n, a, b⟩
    · exact hstay _ rfl

/-- A change of the size of a deployment outside a rollout is passed on in one run and completely, whatever the budgets; the same holds for any difference while it is paused.
`toWrite … = false`: annotations and revision of the set are up to date; otherwise an unpaused deployment spends one run on writing them. -/
theorem C138_scaling {d : FDep} (hd : Plain d) {l : List FSet} {c : FSet} (h : Single d l c) {e : Env} (hu : Undisturbed e) (hs : ∀ l, (e.scale.srtNewest l).Perm l)
    (ha : d.paused = true ∨ (Asked d c ∧ toWrite d l c = false)) : sizes (reconcile d e l).sets = withCur c.set.name d.spec.replicas (sizes l) := by
  obtain ⟨n, a, _, b⟩ := sync_single h e hs
  obtain rfl := b hu
  unfold reconcile
  rw [hu.valid, hd.selects, hu.listOk, hd.alive, hu.preOk, hd.noRollback]
  simp only [Bool.not_true, Bool.false_eq_true, if_false]
  split
  · exact a
  · rename_i hp
    rcases ha with ha | ⟨ha, hw⟩
    · exact absurd ha hp
    · unfold scaleOrRoll
      dsimp only
      have hg : getNew d e false l = { sets := l, new := some c.set.name } := by rw [getNew_cur h.cur, sync_rest hw, hu.depOk]; rfl
      rw [hg, curSet_eq h.unique h.only.mem]
      rw [if_neg (by simp)]
      rw [if_pos]
      · exact a
      · unfold Scale.isScalingEvent
        dsimp only [Option.map_some]
        have hold : Scale.active ((oldSets { sets := l, new := some c.set.name }).map (·.set) ++ [c.set]) = Scale.active [c.set] := by
          unfold Scale.active
          rw [List.filter_append, List.filter_eq_nil_iff.2 (by intro s hs; simpa using old_zero h.only s hs), List.nil_append]
        rw [hold]
        unfold Scale.active
        rcases ha with ⟨h0, h1⟩ | ⟨h0, t, v, h1, h2, h3⟩
        · rw [if_pos ⟨by simp [h0], h1⟩]
        · rw [show [c.set].filter (fun s => decide (s.spec > 0)) = [c.set] by simp [h0]]
          rw [if_neg (by simp)]
          simp [h1, h2, h3]

/-- Any other difference, for instance after somebody has changed the size of the set, is removed in one run too, if no set has more machines than it is to have and the surge can be
read and is not negative. -/
theorem C138_corrected_partial {d : FDep} (hd : Plain d) {l : List FSet} {c : FSet} (h : Single d l c) {e : Env} (hu : Undisturbed e) (hs : ∀ l, (e.scale.srtNewest l).Perm l)
    (hk : d.spec.strategy ≠ .other) (hst : ∀ f ∈ l, f.status ≤ f.set.spec) (hm : ∀ f ∈ l, f.set.name ≠ c.set.name → e.machines f.set.name = 0)
    (hb : d.spec.strategy = .rolling → ∃ s, 0 ≤ s ∧ Rolling.scaledValue d.spec.maxSurge d.spec.replicas true = some s) (hw : toWrite d l c = false) :
    sizes (reconcile d e l).sets = withCur c.set.name d.spec.replicas (sizes l) := by
  obtain ⟨n, a, _, b⟩ := sync_single h e hs
  obtain rfl := b hu
  unfold reconcile
  rw [hu.valid, hd.selects, hu.listOk, hd.alive, hu.preOk, hd.noRollback]
  simp only [Bool.not_true, Bool.false_eq_true, if_false]
  split
  · exact a
  · unfold scaleOrRoll
    dsimp only
    have hg : getNew d e false l = { sets := l, new := some c.set.name } := by rw [getNew_cur h.cur, sync_rest hw, hu.depOk]; rfl
    rw [hg]
    rw [if_neg (by simp)]
    split
    · exact a
    · cases hstr : d.spec.strategy with
      | recreate =>
        obtain ⟨n, a, _, b⟩ := recreate_single h e
        obtain rfl := b hu hst hm hw
        exact a
      | rolling =>
        obtain ⟨n, a, _, b⟩ := rolling_single h e
        obtain rfl := b hu hstr hst (hb hstr) hw
        exact a
      | other => exact absurd hstr hk

/-- Two deployments that differ in their budgets only, with the same sets, are scaled alike. -/
theorem C138_budgets_do_not_matter {d : FDep} (hd : Plain d) (s u : Option Rolling.IntOrStr) {l : List FSet} {c : FSet} (h : Single d l c) {e : Env} (hu : Undisturbed e)
    (hs : ∀ l, (e.scale.srtNewest l).Perm l) (ha : d.paused = true ∨ (Asked d c ∧ toWrite d l c = false)) :
    sizes (reconcile { d with spec := { d.spec with maxSurge := s, maxUnavailable := u } } e l).sets = sizes (reconcile d e l).sets := by
  rw [C138_scaling hd h hu hs ha]
  exact C138_scaling (d := { d with spec := { d.spec with maxSurge := s, maxUnavailable := u } }) ⟨hd.alive, hd.selects, hd.noRollback⟩ ⟨h.unique, h.cur, h.others⟩ hu hs ha

/-! ## Witnesses -/

/-- a deployment of four machines -/
def exDep (surge : Int) : FDep := { spec := { replicas := 4, maxSurge := some (.int surge), maxUnavailable := some (.int 0) }, annotations := [] }

/-- its set, of size three -/
def exSet (desired : String) (status : Int) : FSet :=
  { set := { name := "s", spec := 3, avail := 3, desired := some desired, maxR := some "5" }, annotations := [("deployment.kubernetes.io/revision", "1")], status := status }

/-- the hypotheses of `C138_scaling` are met by a deployment scaled from 3 to 4 -/
example : Plain (exDep 1) ∧ Single (exDep 1) [exSet "3" 3] (exSet "3" 3) ∧ Undisturbed {} ∧ Asked (exDep 1) (exSet "3" 3) ∧ toWrite (exDep 1) [exSet "3" 3] (exSet "3" 3) = false ∧
    sizes (reconcile (exDep 1) {} [exSet "3" 3]).sets = [("s", 4)] := by
  refine ⟨⟨rfl, rfl, rfl⟩, ⟨by decide, by decide +kernel, ?_⟩, ⟨rfl, rfl, rfl, rfl, rfl, fun _ => rfl, rfl, rfl⟩, .inr ⟨by decide, "3", 3, rfl, by decide +kernel, by decide⟩, by decide +kernel, by decide +kernel⟩
  intro f hf hn
  obtain rfl := List.mem_singleton.1 hf
  exact absurd rfl hn

/-- For a difference that is not a change of the deployment's size the surge does matter: if the set of size 3 instead of 4 has five machines (two are being deleted), nothing happens
with a surge of 1, and with a surge of 4 it gets its size. -/
theorem C138_hand_edit_false : ∃ (l : List FSet) (c : FSet), Single (exDep 1) l c ∧ Single (exDep 4) l c ∧ toWrite (exDep 1) l c = false ∧
    sizes (reconcile (exDep 1) {} l).sets = [("s", 3)] ∧ sizes (reconcile (exDep 4) {} l).sets = [("s", 4)] := by
  have hs : ∀ n, Single (exDep n) [exSet "4" 5] (exSet "4" 5) := fun n => by
    refine ⟨by decide, (by decide +kernel : [exSet "4" 5].find? (fun f => equalIgnoreHash f.tmpl {}) = some (exSet "4" 5)), fun f hf hn => ?_⟩
    obtain rfl := List.mem_singleton.1 hf
    exact absurd rfl hn
  exact ⟨[exSet "4" 5], exSet "4" 5, hs 1, hs 4, by decide +kernel, by decide +kernel, by decide +kernel⟩

/-- A negative surge, which the validation accepts (C51), keeps a set that is too small at its size even if no machine is too many. -/
theorem C138_negative_surge_false : ∃ (l : List FSet) (c : FSet), Single (exDep (-1)) l c ∧ (∀ f ∈ l, f.status ≤ f.set.spec) ∧ toWrite (exDep (-1)) l c = false ∧
    sizes (reconcile (exDep (-1)) {} l).sets = [("s", 3)] := by
  refine ⟨[exSet "4" 3], exSet "4" 3, ⟨by decide, by decide +kernel, fun f hf hn => ?_⟩, fun f hf => ?_, by decide +kernel, by decide +kernel⟩
  · obtain rfl := List.mem_singleton.1 hf
    exact absurd rfl hn
  · obtain rfl := List.mem_singleton.1 hf
    decide

end MCM.Outside
