import Verif.Model.Volumes
import Verif.Props.Drain
/-!
C38: shared volumes. C48: waiting for detachment. C72: waiting for attachment elsewhere. C73: distribution of volume attachments.
-/
namespace MCM.Drain

/-! ### C38 -/

theorem mem_flat {m : List (String × List String)} {v : String} : v ∈ m.flatMap (·.2) ↔ ∃ e ∈ m, v ∈ e.2 := List.mem_flatMap

theorem other_entries {l r : List (String × List String)} {e : String × List String} (hk : ((l ++ e :: r).map (·.1)).Nodup) (e' : String × List String) :
    (e' ∈ l ++ e :: r ∧ e'.1 ≠ e.1) ↔ e' ∈ l ∨ e' ∈ r := by
  rw [List.map_append, List.map_cons, List.nodup_append] at hk
  obtain ⟨_, h2, h3⟩ := hk
  obtain ⟨h4, _⟩ := List.nodup_cons.1 h2
  constructor
  · rintro ⟨h, hne⟩
    rcases List.mem_append.1 h with h | h
    · exact .inl h
    · rcases List.mem_cons.1 h with rfl | h
      · exact absurd rfl hne
      · exact .inr h
  · rintro (h | h)
    · exact ⟨List.mem_append_left _ h, fun he => h3 _ (List.mem_map_of_mem h) _ List.mem_cons_self he⟩
    · exact ⟨List.mem_append_right _ (List.mem_cons_of_mem _ h), fun he => h4 (he ▸ List.mem_map_of_mem h)⟩

/-- C38: A volume used by two of the pods is not waited for. -/
theorem C38_shared_not_awaited (m : List (String × List String)) (hk : (m.map (·.1)).Nodup) (k : String) (vs : List String) (v : String)
    (h : (k, vs) ∈ filterShared m) (hv : v ∈ vs) : ∃ e ∈ m, e.1 = k ∧ v ∈ e.2 ∧ ∀ e' ∈ m, e'.1 ≠ k → v ∉ e'.2 := by
  unfold filterShared at h
  obtain ⟨e, he, h⟩ := List.mem_map.1 h
  cases h
  obtain ⟨hv1, hv2⟩ := List.mem_filter.1 hv
  refine ⟨e, he, rfl, hv1, fun e' he' hne hv' => ?_⟩
  obtain ⟨l, r, rfl⟩ := List.append_of_mem he
  have hc : (List.flatMap (·.2) (l ++ e :: r)).count v < 2 := by
    unfold shared at hv2
    simpa using hv2
  rw [List.flatMap_append, List.flatMap_cons, List.count_append, List.count_append] at hc
  have h1 : 0 < e.2.count v := List.count_pos_iff.2 hv1
  rcases (other_entries hk e').1 ⟨he', hne⟩ with h | h
  · have : 0 < (l.flatMap (·.2)).count v := List.count_pos_iff.2 (mem_flat.2 ⟨e', h, hv'⟩)
    omega
  · have : 0 < (r.flatMap (·.2)).count v := List.count_pos_iff.2 (mem_flat.2 ⟨e', h, hv'⟩)
    omega

/-- C38: If no pod uses a volume twice, all other volumes are kept. -/
theorem C38_others_awaited_partial (m : List (String × List String)) (hk : (m.map (·.1)).Nodup) (e : String × List String) (he : e ∈ m) (hd : e.2.Nodup) (v : String) (hv : v ∈ e.2)
    (ho : ∀ e' ∈ m, e'.1 ≠ e.1 → v ∉ e'.2) : ∃ vs, (e.1, vs) ∈ filterShared m ∧ v ∈ vs := by
  refine ⟨_, List.mem_map.2 ⟨e, he, rfl⟩, List.mem_filter.2 ⟨hv, ?_⟩⟩
  obtain ⟨l, r, rfl⟩ := List.append_of_mem he
  unfold shared
  rw [List.flatMap_append, List.flatMap_cons, List.count_append, List.count_append]
  have h0 : ∀ x : List (String × List String), (∀ e' ∈ x, v ∉ e'.2) → (x.flatMap (·.2)).count v = 0 := by
    intro x hx
    rw [List.count_eq_zero]
    intro h
    obtain ⟨e', h1, h2⟩ := mem_flat.1 h
    exact hx e' h1 h2
  rw [h0 l (fun e' h => ho e' ((other_entries hk e').2 (.inl h)).1 ((other_entries hk e').2 (.inl h)).2),
    h0 r (fun e' h => ho e' ((other_entries hk e').2 (.inr h)).1 ((other_entries hk e').2 (.inr h)).2)]
  have := (List.nodup_iff_count.1 hd) v
  simp
  omega

/-- C38, false part: A pod that mounts the same claim twice makes the volume look shared; it is not waited for. -/
theorem C38_twice_false : ¬ ∀ (m : List (String × List String)), (m.map (·.1)).Nodup → ∀ (e : String × List String), e ∈ m → ∀ v ∈ e.2, (∀ e' ∈ m, e'.1 ≠ e.1 → v ∉ e'.2) →
    ∃ vs, (e.1, vs) ∈ filterShared m ∧ v ∈ vs := by
  intro h
  obtain ⟨vs, h1, h2⟩ := h [("default/a", ["pv", "pv"])] (by decide) _ List.mem_cons_self "pv" (by decide) (by
    intro e' he' hne
    rw [List.mem_singleton] at he'
    subst he'
    exact absurd rfl hne)
  have : filterShared [("default/a", ["pv", "pv"])] = [("default/a", [])] := by decide +kernel
  rw [this, List.mem_singleton] at h1
  cases h1
  cases h2

example : filterShared [("default/a", ["x", "nfs"]), ("default/b", ["nfs"])] = [("default/a", ["x"]), ("default/b", [])] := by decide +kernel

/-! ### C48 -/

/-- a name without characters that have a special meaning in patterns (other than the dot) -/
def Plain (cs : List Char) : Prop := ∀ c ∈ cs, c ≠ '[' ∧ c ∉ special ∧ c ≠ '\n'

theorem parse_plain (cs : List Char) (h : Plain cs) : ∀ n, cs.length < n → parse n cs = some (cs.map fun c => if c = '.' then .any else .lit c) := by
  induction cs with
  | nil => intro n hn; cases n with
    | zero => exact absurd hn (Nat.not_lt_zero _)
    | succ n => rfl
  | cons c cs ih =>
    intro n hn
    cases n with
    | zero => exact absurd hn (Nat.not_lt_zero _)
    | succ n =>
      have hc := h c List.mem_cons_self
      have := ih (fun c h' => h c (List.mem_cons_of_mem _ h')) n (by simpa using hn)
      rw [parse, this]
      by_cases hd : c = '.'
      · rw [if_pos hd]; simp [hd]
      · rw [if_neg hd, if_neg hc.1, if_neg hc.2.1]; simp [hd]

theorem fitsStart_self (cs rest : List Char) (h : '\n' ∉ cs) : fitsStart (cs.map fun c => if c = '.' then .any else .lit c) (cs ++ rest) = true := by
  induction cs with
  | nil => cases rest <;> rfl
  | cons c cs ih =>
    rw [List.map_cons, List.cons_append, fitsStart, ih (fun h' => h (List.mem_cons_of_mem _ h')), Bool.and_true]
    have hc : c ≠ '\n' := fun h' => h (h' ▸ List.mem_cons_self)
    split
    · simp [Tok.fits, hc]
    · simp [Tok.fits]

theorem fitsSomewhere_append (ts : List Tok) (pre s : List Char) (h : fitsStart ts s = true) : fitsSomewhere ts (pre ++ s) = true := by
  induction pre with
  | nil =>
    cases s with
    | nil => exact h
    | cons d s => rw [List.nil_append, fitsSomewhere, h]; rfl
  | cons c pre ih => rw [List.cons_append, fitsSomewhere, ih, Bool.or_true]

/-- an occurrence of a plain identifier is found -/
theorem match_plain (other : List Char → List Char → Bool) (i n : List Char) (hp : Plain i) (h : i <:+: n) : matchString other i n = true := by
  obtain ⟨pre, post, rfl⟩ := h
  unfold matchString
  rw [parse_plain i hp _ (Nat.lt_succ_self _)]
  dsimp only
  rw [List.append_assoc]
  exact fitsSomewhere_append _ pre _ (fitsStart_self i post (fun h => (hp '\n' h).2.2 rfl))

/-- the volume is reported as attached -/
def Attached (i : List Char) (names : List (List Char)) : Prop := ∃ n ∈ names, i <:+: n

theorem go_ok (other : List Char → List Char → Bool) (ids : List (List Char)) (polls : List Poll) (h : waitForDetach.go other ids polls = some .ok) :
    ∃ pre names post, polls = pre ++ .attached names :: post ∧ ∀ n ∈ names, ∀ i ∈ ids, matchString other i n = false := by
  induction polls with
  | nil => cases h
  | cons p polls ih =>
    cases p with
    | timeout => cases h
    | notFound => cases h
    | error => cases h
    | attached names =>
      rw [waitForDetach.go] at h
      split at h
      · obtain ⟨pre, names', post, h1, h2⟩ := ih h
        exact ⟨.attached names :: pre, names', post, by rw [h1]; rfl, h2⟩
      · rename_i hc
        refine ⟨[], names, polls, rfl, fun n hn i hi => ?_⟩
        cases hm : matchString other i n with
        | false => rfl
        | true => exact absurd (List.any_eq_true.2 ⟨n, hn, List.any_eq_true.2 ⟨i, hi, hm⟩⟩) hc

/-- C48: If identifiers consist of ordinary characters and dots, the wait succeeds only after the node was seen without any of the volumes. -/
theorem C48_detached_partial (other : List Char → List Char → Bool) (ids : List (List Char)) (node : String) (polls : List Poll) (hi : ids ≠ []) (hn : node ≠ "") (hp : ∀ i ∈ ids, Plain i)
    (h : waitForDetach other ids node polls = some .ok) : ∃ names, Poll.attached names ∈ polls ∧ ∀ i ∈ ids, ¬ Attached i names := by
  unfold waitForDetach at h
  rw [if_neg (fun h => h.elim hi hn)] at h
  obtain ⟨pre, names, post, h1, h2⟩ := go_ok other ids polls h
  refine ⟨names, by rw [h1]; simp, fun i hi' ⟨n, hn', hin⟩ => ?_⟩
  have := match_plain other i n (hp i hi') hin
  rw [h2 n hn' i hi'] at this
  cases this

/-- C48: It also ends: as soon as the node reports no volumes at all, or is gone. -/
theorem C48_ends (other : List Char → List Char → Bool) (ids : List (List Char)) (node : String) (pre post : List Poll) :
    (waitForDetach other ids node (pre ++ .attached [] :: post)).isSome = true ∧ (waitForDetach other ids node (pre ++ .notFound :: post)).isSome = true := by
  unfold waitForDetach
  split
  · exact ⟨rfl, rfl⟩
  · induction pre with
    | nil => exact ⟨rfl, rfl⟩
    | cons p pre ih =>
      cases p with
      | timeout => exact ⟨rfl, rfl⟩
      | notFound => exact ⟨rfl, rfl⟩
      | error => exact ⟨rfl, rfl⟩
      | attached names =>
        rw [List.cons_append, List.cons_append, waitForDetach.go, waitForDetach.go]
        split
        · exact ih
        · exact ⟨rfl, rfl⟩

/-- C48: The wait is for exactly the volumes the driver knows by a name that is not empty. -/
theorem C48_identifiers (driver : String → Option String) (names : List String) (v : Volume) :
    v ∈ infos driver names ↔ v.pv ∈ names ∧ driver v.pv = some v.id ∧ v.id ≠ "" := by
  unfold infos
  rw [List.mem_filterMap]
  constructor
  · rintro ⟨n, hn, h⟩
    split at h
    · rename_i id hid
      split at h
      · cases h
      · rename_i hne; cases h; exact ⟨hn, hid, hne⟩
    · cases h
  · rintro ⟨hn, hid, hne⟩
    refine ⟨v.pv, hn, ?_⟩
    rw [hid]
    dsimp only
    rw [if_neg hne]

/-- C48, false part: An identifier with brackets, as of vSphere volumes, does not fit itself: the wait ends though the volume is attached. -/
theorem C48_brackets_false (other : List Char → List Char → Bool) : ¬ ∀ (ids : List (List Char)) (node : String) (polls : List Poll), ids ≠ [] → node ≠ "" →
    waitForDetach other ids node polls = some .ok → ∃ names, Poll.attached names ∈ polls ∧ ∀ i ∈ ids, ¬ Attached i names := by
  intro h
  have hm : matchString other "[ds1] vols/pvc.vmdk".toList "kubernetes.io/vsphere-volume/[ds1] vols/pvc.vmdk".toList = false := by
    unfold matchString
    rw [show parse ("[ds1] vols/pvc.vmdk".toList.length + 1) "[ds1] vols/pvc.vmdk".toList =
      some (.set ['d', 's', '1'] :: " vols/pvc".toList.map .lit ++ .any :: "vmdk".toList.map .lit) from by decide +kernel]
    dsimp only
    decide +kernel
  obtain ⟨names, h1, h2⟩ := h ["[ds1] vols/pvc.vmdk".toList] "n" [.attached ["kubernetes.io/vsphere-volume/[ds1] vols/pvc.vmdk".toList]] (by decide) (by decide) (by
    unfold waitForDetach
    rw [if_neg (by decide)]
    unfold waitForDetach.go
    rw [if_neg (by simp only [List.any_cons, List.any_nil, hm]; decide)])
  rw [List.mem_singleton] at h1
  injection h1 with h1
  subst h1
  exact h2 _ List.mem_cons_self ⟨_, List.mem_cons_self, "kubernetes.io/vsphere-volume/".toList, [], by decide +kernel⟩

/-- C48, false part: The wait may be for a volume of somebody else, whose name contains the identifier. -/
theorem C48_foreign_false : ¬ ∀ (other : List Char → List Char → Bool) (i name : List Char) (polls : List Poll), name ≠ "kubernetes.io/csi/d^".toList ++ i → waitForDetach other [i] "n" (.attached [name] :: polls) = some .ok := by
  intro h
  have := h (fun _ _ => false) "vol-1".toList "kubernetes.io/csi/d^vol-10".toList [] (by decide +kernel)
  revert this
  decide +kernel

/-- how often the pods mention a claim bound to this volume -/
def uses (claim : String → String → Option String) (ps : List Pod) (pv : String) : Nat :=
  (ps.map fun p => p.vols.countP fun v => match v with
    | .pvc c => claim p.ns c == some pv
    | _ => false).sum

theorem count_pvNames (claim : String → String → Option String) (p : Pod) (pv : String) :
    (pvNames claim p).count pv = p.vols.countP fun v => match v with
      | .pvc c => claim p.ns c == some pv
      | _ => false := by
  unfold pvNames
  induction p.vols with
  | nil => rfl
  | cons v vs ih =>
    rw [List.countP_cons, List.filterMap_cons, ← ih]
    cases v with
    | pvc c =>
      by_cases hc : claim p.ns c = some pv
      · simp [hc]
      · cases hx : claim p.ns c with
        | none => simp [hx]
        | some x =>
          have : x ≠ pv := fun e => hc (by rw [hx, e])
          simp [hx, this]
    | emptyDir => simp
    | other => simp

theorem count_all (claim : String → String → Option String) (ps : List Pod) (pv : String) :
    ((ps.map fun p => (p.ns ++ "/" ++ p.name, pvNames claim p)).flatMap (·.2)).count pv = uses claim ps pv := by
  unfold uses
  induction ps with
  | nil => rfl
  | cons p ps ih =>
    rw [List.map_cons, List.flatMap_cons, List.count_append, ih, List.map_cons, List.sum_cons, count_pvNames]

/-- C38: What the drain waits for, from the pods to be evicted to the volumes: for each pod, under the key made of its namespace and name, exactly the volumes
bound to its claims that no other mention among these pods refers to and for which the driver knows an identifier. -/
theorem C38_awaited (claim : String → String → Option String) (driver : String → Option String) (ps : List Pod) :
    (podInfos claim driver ps).map (·.1) = ps.map (fun p => p.ns ++ "/" ++ p.name) ∧
    ∀ p ∈ ps, ∃ vs, (p.ns ++ "/" ++ p.name, vs) ∈ podInfos claim driver ps ∧
      ∀ v, v ∈ vs ↔ (∃ c, .pvc c ∈ p.vols ∧ claim p.ns c = some v.pv) ∧ uses claim ps v.pv < 2 ∧ driver v.pv = some v.id ∧ v.id ≠ "" := by
  unfold podInfos filterShared
  refine ⟨by simp [List.map_map, Function.comp_def], fun p hp =>
    ⟨infos driver ((pvNames claim p).filter fun v => !shared (ps.map fun p => (p.ns ++ "/" ++ p.name, pvNames claim p)) v), ?_, fun v => ?_⟩⟩
  · simp only [List.map_map, List.mem_map, Function.comp_def]
    exact ⟨p, hp, rfl⟩
  · rw [C48_identifiers, List.mem_filter]
    have h1 : (!shared (ps.map fun p => (p.ns ++ "/" ++ p.name, pvNames claim p)) v.pv) = true ↔ uses claim ps v.pv < 2 := by
      unfold shared
      rw [count_all]
      simp
    have h2 : v.pv ∈ pvNames claim p ↔ ∃ c, .pvc c ∈ p.vols ∧ claim p.ns c = some v.pv := by
      unfold pvNames
      rw [List.mem_filterMap]
      constructor
      · rintro ⟨x, hx, h⟩
        cases x with
        | pvc c => exact ⟨c, hx, h⟩
        | emptyDir => cases h
        | other => cases h
      · rintro ⟨c, hc, h⟩
        exact ⟨.pvc c, hc, h⟩
    rw [h1, h2]
    constructor
    · rintro ⟨⟨a, b⟩, c, d⟩; exact ⟨a, b, c, d⟩
    · rintro ⟨a, b, c, d⟩; exact ⟨⟨a, b⟩, c, d⟩

/-- two pods share the volume of `data`; only the other one is waited for -/
example : podInfos (fun _ c => some ("pv-" ++ c)) (fun pv => some ("id-" ++ pv))
    [{ ns := "a", name := "p", uid := "1", node := "n", vols := [.pvc "data", .pvc "own"] }, { ns := "a", name := "q", uid := "2", node := "n", vols := [.pvc "data", .emptyDir] }] =
    [("a/p", [⟨"pv-own", "id-pv-own"⟩]), ("a/q", [])] := by decide +kernel

/-- C48, false part: Volumes for which the driver fails to give an identifier are not waited for. -/
theorem C48_driver_error_false (other : List Char → List Char → Bool) (names : List String) (node : String) (polls : List Poll) :
    waitForDetach other ((infos (fun _ => none) names).map (·.id.toList)) node polls = some .ok := by
  have : infos (fun _ => none) names = [] := by
    unfold infos
    induction names with
    | nil => rfl
    | cons n ns ih => exact ih
  rw [this]
  exact if_pos (.inl rfl)

/-- C69, false part: For a pod whose volumes are all shared or unknown to the provider, success is reported as soon as the eviction is accepted:
there is no wait at all, neither for volumes nor for the end of the pod. -/
theorem C69_not_awaited_false (other : List Char → List Char → Bool) (node : String) (polls : List Poll) (es : List REv) (p : Pod) (handler : Bool) :
    waitForDetach other [] node polls = some .ok ∧ waitForReattach handler [] node es = some .ok ∧
    withPv true 1 (fun _ _ => { resp := .ok, detach := .ok, reattach := .ok }) [p] = [.req p .evict .ok, .detach p .ok, .reattach p .ok, .result p true] :=
  ⟨if_pos (.inl rfl), if_pos (.inl rfl), rfl⟩

example : Plain "vol-0a1.b".toList := by unfold Plain; decide +kernel
example : waitForDetach (fun _ _ => false) ["vol-1".toList] "n" [.attached ["kubernetes.io/csi/d^vol-1".toList], .attached ["kubernetes.io/csi/d^vol-2".toList]] = some .ok := by decide +kernel

/-! ### C72 -/

/-- the volume was reported to be attached to another node -/
def Moved (prev : String) (es : List REv) (pv : String) : Prop := ∃ node, node ≠ prev ∧ REv.event (some pv) true node ∈ es

theorem reattachLoop_ok (prev : String) (es : List REv) : ∀ pending, reattachLoop prev pending es = some .ok → ∀ pv ∈ pending, Moved prev es pv := by
  induction es with
  | nil => intro pending h; cases h
  | cons e es ih =>
    intro pending h pv hpv
    cases e with
    | timeout => cases h
    | event n att node =>
      cases n with
      | none => cases h
      | some n =>
        rw [reattachLoop] at h
        by_cases hc : (att = true ∧ node ≠ prev) ∧ pv = n
        · obtain ⟨⟨rfl, hne⟩, rfl⟩ := hc
          exact ⟨node, hne, List.mem_cons_self⟩
        · have hmem : pv ∈ left prev pending n att node := by
            unfold left
            split
            · rename_i h1
              exact List.mem_filter.2 ⟨hpv, by simpa using fun h2 => hc ⟨h1, h2⟩⟩
            · exact hpv
          split at h
          · rename_i he
            rw [he] at hmem
            cases hmem
          · obtain ⟨x, h1, h2⟩ := ih _ h pv hmem
            exact ⟨x, h1, List.mem_cons_of_mem _ h2⟩

/-- C72: The wait ends with success only if every volume was reported to be attached to another node. -/
theorem C72_moved (pvs : List String) (prev : String) (es : List REv) (hp : prev ≠ "") (h : waitForReattach true pvs prev es = some .ok) : ∀ pv ∈ pvs, Moved prev es pv := by
  intro pv hpv
  unfold waitForReattach at h
  split at h
  · rename_i hc
    rcases hc with rfl | hc
    · cases hpv
    · exact absurd hc hp
  · exact reattachLoop_ok prev es pvs h pv hpv

theorem reattachLoop_ends (prev : String) (es : List REv) (hev : ∀ e ∈ es, ∃ pv att node, e = .event (some pv) att node) : ∀ pending, (es ≠ [] ∨ pending ≠ []) → (∀ pv ∈ pending, Moved prev es pv) → reattachLoop prev pending es = some .ok := by
  induction es with
  | nil =>
    intro pending h hm
    rcases h with h | h
    · exact absurd rfl h
    · cases pending with
      | nil => exact absurd rfl h
      | cons pv _ =>
        obtain ⟨_, _, h⟩ := hm pv List.mem_cons_self
        cases h
  | cons e es ih =>
    intro pending _ hm
    obtain ⟨n, att, node, rfl⟩ := hev e List.mem_cons_self
    rw [reattachLoop]
    split
    · rfl
    · rename_i hne
      refine ih (fun e h => hev e (List.mem_cons_of_mem _ h)) _ (.inr hne) (fun pv hpv => ?_)
      have hin : pv ∈ pending ∧ (att = true ∧ node ≠ prev → pv ≠ n) := by
        unfold left at hpv
        split at hpv
        · obtain ⟨h1, h2⟩ := List.mem_filter.1 hpv
          exact ⟨h1, fun _ => by simpa using h2⟩
        · rename_i hc
          exact ⟨hpv, fun h => absurd h hc⟩
      obtain ⟨x, h1, h2⟩ := hm pv hin.1
      rcases List.mem_cons.1 h2 with h2 | h2
      · cases h2
        exact absurd rfl (hin.2 ⟨rfl, h1⟩)
      · exact ⟨x, h1, h2⟩

/-- C72: And it ends with success as soon as this was reported for all of them (before the timeout). -/
theorem C72_ends (pvs : List String) (prev : String) (es : List REv) (hev : ∀ e ∈ es, ∃ pv att node, e = .event (some pv) att node)
    (hm : ∀ pv ∈ pvs, Moved prev es pv) : waitForReattach true pvs prev es = some .ok := by
  unfold waitForReattach
  split
  · rfl
  · rename_i hc
    exact reattachLoop_ends prev es hev pvs (.inr (fun h => hc (.inl h))) hm

/-- C72, false part: Without a handler of volume attachments the wait always takes the full time. -/
theorem C72_no_handler_false (pvs : List String) (prev : String) (es : List REv) (hp : pvs ≠ []) (hprev : prev ≠ "") : waitForReattach false pvs prev es ≠ some .ok := by
  unfold waitForReattach
  rw [if_neg (fun h => h.elim hp hprev), if_neg (by decide), if_neg (by decide)]
  induction es with
  | nil => exact (nomatch ·)
  | cons e es ih =>
    rw [List.filter_cons]
    split
    · rename_i h
      have : e = .timeout := by simpa using h
      subst this
      exact (nomatch ·)
    · exact ih

/-- C72, false part: An attachment of an inline volume makes the drain panic. -/
theorem C72_inline_false : ¬ ∀ pvs prev es, waitForReattach true pvs prev es ≠ some .panic := by
  intro h
  exact h ["pv"] "n" [.event none true "m"] (by decide)

example : waitForReattach true ["a", "b"] "n" [.event (some "a") true "m", .event (some "b") true "n", .event (some "b") true "m"] = some .ok := by decide +kernel

/-! ### C73 -/

structure Sound (h : Handler) : Prop where
  ids : (h.workers.map (·.id)).Nodup
  below : ∀ w ∈ h.workers, w.id < h.next
  closedBelow : ∀ i ∈ h.closed, i < h.next
  closedOnce : h.closed.Nodup
  apart : ∀ w ∈ h.workers, w.id ∉ h.closed

theorem Sound.no_misuse {h : Handler} (hs : Sound h) (p : Worker → Bool) : h.misuse p = false := by
  unfold Handler.misuse
  rw [List.any_eq_false]
  intro w hw
  have := hs.apart w hw
  simp [this]

theorem ids_map (ws : List Worker) (f : Worker → Worker) (hf : ∀ w, (f w).id = w.id) : (ws.map f).map (·.id) = ws.map (·.id) := by
  rw [List.map_map]
  exact List.map_congr_left fun w _ => hf w

theorem put_id (w : Worker) (v : VA) : (w.put v).id = w.id := by
  unfold Worker.put
  split <;> rfl

theorem Sound.map {h : Handler} (hs : Sound h) (f : Worker → Worker) (hf : ∀ w, (f w).id = w.id) (c : Bool) : Sound { h with workers := h.workers.map f, crashed := c } where
  ids := by dsimp only; rw [ids_map _ f hf]; exact hs.ids
  below := by
    intro w hw
    obtain ⟨w', h1, rfl⟩ := List.mem_map.1 hw
    rw [hf]
    exact hs.below w' h1
  closedBelow := hs.closedBelow
  closedOnce := hs.closedOnce
  apart := by
    intro w hw
    obtain ⟨w', h1, rfl⟩ := List.mem_map.1 hw
    rw [hf]
    exact hs.apart w' h1

theorem Sound.step {h : Handler} (hs : Sound h) (op : HOp) : Sound (h.step op) := by
  cases op with
  | add =>
    refine ⟨?_, ?_, ?_, hs.closedOnce, ?_⟩
    · dsimp only [Handler.step]
      rw [List.map_append, List.nodup_append]
      refine ⟨hs.ids, List.nodup_cons.2 ⟨(nomatch ·), List.nodup_nil⟩, fun a ha b hb hab => ?_⟩
      obtain ⟨w, hw, rfl⟩ := List.mem_map.1 ha
      have hb : b = h.next := by simpa using hb
      have := hs.below w hw
      omega
    · intro w hw
      dsimp only [Handler.step] at hw ⊢
      rcases List.mem_append.1 hw with hw | hw
      · have := hs.below w hw; omega
      · rw [List.mem_singleton] at hw; subst hw; exact Nat.lt_succ_self _
    · intro i hi
      have := hs.closedBelow i hi
      dsimp only [Handler.step]
      omega
    · intro w hw hc
      dsimp only [Handler.step] at hw hc
      rcases List.mem_append.1 hw with hw | hw
      · exact hs.apart w hw hc
      · rw [List.mem_singleton] at hw
        subst hw
        exact absurd (hs.closedBelow _ hc) (Nat.lt_irrefl _)
  | delete id =>
    refine ⟨?_, ?_, ?_, ?_, ?_⟩
    · exact (List.filter_sublist.map _).nodup hs.ids
    · intro w hw
      exact hs.below w (List.mem_filter.1 hw).1
    · intro i hi
      rcases List.mem_append.1 hi with hi | hi
      · exact hs.closedBelow i hi
      · obtain ⟨w, hw, rfl⟩ := List.mem_map.1 hi
        exact hs.below w (List.mem_filter.1 hw).1
    · dsimp only [Handler.step]
      rw [List.nodup_append]
      refine ⟨hs.closedOnce, (List.filter_sublist.map _).nodup hs.ids, fun a ha b hb hab => ?_⟩
      obtain ⟨w, hw, rfl⟩ := List.mem_map.1 hb
      exact hs.apart w (List.mem_filter.1 hw).1 (hab ▸ ha)
    · intro w hw hc
      obtain ⟨hw1, hw2⟩ := List.mem_filter.1 hw
      rcases List.mem_append.1 hc with hc | hc
      · exact hs.apart w hw1 hc
      · obtain ⟨w', hw', he⟩ := List.mem_map.1 hc
        have := (List.mem_filter.1 hw').2
        rw [he] at this
        rw [this] at hw2
        cases hw2
  | dispatch v =>
    rw [Handler.step]
    split
    · exact hs
    · split
      · exact ⟨hs.ids, hs.below, hs.closedBelow, hs.closedOnce, hs.apart⟩
      · exact hs.map _ (fun w => put_id w v) _
  | receive id => exact hs.map _ (fun w => by split <;> rfl) _

/-- C73: As long as all events are about persistent volumes, no order of operations closes a channel twice, sends to a closed channel, or
otherwise crashes. -/
theorem C73_no_crash_partial (ops : List HOp) (h : Handler) (hs : Sound h) (hc : h.crashed = false) (hv : HOp.dispatch none ∉ ops) : (h.run ops).crashed = false ∧ Sound (h.run ops) := by
  unfold Handler.run
  induction ops generalizing h with
  | nil => exact ⟨hc, hs⟩
  | cons op ops ih =>
    rw [List.foldl_cons]
    refine ih (h.step op) (hs.step op) ?_ (fun h' => hv (List.mem_cons_of_mem _ h'))
    cases op with
    | add => exact hc
    | delete id => simp [Handler.step, hc, hs.no_misuse]
    | receive id => exact hc
    | dispatch v =>
      rw [Handler.step]
      split
      · exact hc
      · rw [if_neg (fun h' : v = none => hv (h' ▸ List.mem_cons_self))]
        simp [hc, hs.no_misuse]

example : Sound {} := ⟨List.nodup_nil, fun _ h => (nomatch h), fun _ h => (nomatch h), List.nodup_nil, fun _ h => (nomatch h)⟩

/-- C73, false part: One volume attachment with an inline volume crashes the controller while any node is drained. -/
theorem C73_inline_false (h : Handler) (hw : h.workers ≠ []) : (h.step (.dispatch none)).crashed = true := by
  rw [Handler.step, if_neg hw, if_pos rfl]

/-- C73: Every drain that has a channel with room gets the event, at the end of its channel; nobody's other events change. -/
theorem C73_delivered (h : Handler) (w : Worker) (hw : w ∈ h.workers) (v : String) :
    (w.buf.length < 20 → { w with buf := w.buf ++ [some v] } ∈ (h.step (.dispatch (some v))).workers) ∧ (20 ≤ w.buf.length → w ∈ (h.step (.dispatch (some v))).workers) := by
  have hne : h.workers ≠ [] := List.ne_nil_of_mem hw
  rw [Handler.step, if_neg hne, if_neg (nomatch ·)]
  dsimp only
  constructor
  · intro hl
    refine List.mem_map.2 ⟨w, hw, ?_⟩
    unfold Worker.put chanSize
    rw [if_pos hl]
  · intro hl
    refine List.mem_map.2 ⟨w, hw, ?_⟩
    unfold Worker.put chanSize
    rw [if_neg (by omega)]

/-- what a crash is: a worker with a closed channel that is still registered would be sent to, or closed again -/
example : ({ workers := [⟨0, []⟩], closed := [0] } : Handler).step (.dispatch (some "pv")) = { workers := [⟨0, [some "pv"]⟩], closed := [0], crashed := true } ∧
    (({ workers := [⟨0, []⟩], closed := [0] } : Handler).step (.delete 0)).crashed = true := by decide +kernel

/-- C73, false part: Events are lost if a drain does not read fast enough: while it waits for the detachment of volumes (which reads nothing) more
than twenty events make it miss that its volume was attached elsewhere. -/
theorem C73_lost_false : ¬ ∀ (ops : List HOp) (v : String), HOp.dispatch (some v) ∈ ops → (∀ i, HOp.receive i ∉ ops ∧ HOp.delete i ∉ ops) →
    ∀ w ∈ (({} : Handler).run (HOp.add :: ops)).workers, some v ∈ w.buf := by
  intro h
  have := h (List.replicate 20 (.dispatch (some "other")) ++ [.dispatch (some "pv")]) "pv" (by simp) (by intro i; simp) ⟨0, List.replicate 20 (some "other")⟩ (by decide +kernel)
  revert this
  decide +kernel

end MCM.Drain
