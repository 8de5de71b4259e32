import Verif.Model.Drain
/-!
C35: which pods are drained. C36: one result for each pod. C37: evictions come before deletions. C69: success means that the pods are gone.
C70: pods with volumes are drained one after another. C71: the node is cordoned first.
-/
namespace MCM.Drain

/-! ### C35 -/

/-- a pod has to leave the node -/
def Drainable (node : String) (p : Pod) : Prop := p.node = node ∧ p.mirror = false ∧ p.controller ≠ some "DaemonSet"

/-- C35: Exactly the pods of the node that are neither mirror pods nor controlled by a daemon set are drained, each as often as it is listed
(once, as caches hold a pod once). -/
theorem C35_exactly (node : String) (cache : List Pod) :
    ∃ ps, podsForDeletion flags node cache = some ps ∧ ps.Sublist cache ∧ (∀ p, p ∈ ps ↔ p ∈ cache ∧ Drainable node p) ∧ (cache.Nodup → ps.Nodup) := by
  have hfatal : ∀ p : Pod, (filters flags p).any (·.2) = false := by
    intro p
    unfold filters mirrorFilter localFilter unreplicatedFilter daemonsetFilter flags
    simp only [List.any_cons, List.any_nil, ite_true]
    repeat' split
    all_goals rfl
  have hok : ∀ p : Pod, (filters flags p).all (·.1) = true ↔ p.mirror = false ∧ p.controller ≠ some "DaemonSet" := by
    intro p
    unfold filters mirrorFilter localFilter unreplicatedFilter daemonsetFilter flags
    simp only [List.all_cons, List.all_nil, ite_true]
    by_cases hc : p.controller = some "DaemonSet"
    · simp [hc]
    · by_cases hm : p.mirror = true
      · simp [hm]
      · have : p.mirror = false := by simpa using hm
        simp only [this, ne_eq, hc, not_false_eq_true, if_true, and_true, iff_true]
        split <;> split <;> (try split) <;> rfl
  unfold podsForDeletion
  rw [if_neg (by simp [hfatal])]
  refine ⟨_, rfl, (List.filter_sublist).trans List.filter_sublist, fun p => ?_, fun h => (h.filter _).filter _⟩
  rw [List.mem_filter, List.mem_filter, hok]
  unfold Drainable
  simp [and_assoc]

/-- a pod that the options `f` do not allow to be dealt with -/
def Objection (f : Flags) (p : Pod) : Prop :=
  (f.deleteLocalData = false ∧ Vol.emptyDir ∈ p.vols) ∨ (f.ignoreUncontrolled = false ∧ p.controller = none ∧ p.finished = false) ∨
    (f.ignoreDaemonsets = false ∧ p.controller = some "DaemonSet")

/-- C35: Whatever the options: the drain is refused exactly if there is an objection to a pod of the node, and otherwise the same pods are drained as with the options used. -/
theorem C35_options (f : Flags) (node : String) (cache : List Pod) :
    (podsForDeletion f node cache = none ↔ ∃ p ∈ cache, p.node = node ∧ Objection f p) ∧
    (∀ ps, podsForDeletion f node cache = some ps → ∀ p, p ∈ ps ↔ p ∈ cache ∧ Drainable node p) := by
  have hfatal : ∀ p : Pod, (filters f p).any (·.2) = true ↔ Objection f p := by
    intro p
    have he : p.vols.any (· = .emptyDir) = true ↔ Vol.emptyDir ∈ p.vols := by simp
    unfold filters mirrorFilter localFilter unreplicatedFilter daemonsetFilter Objection
    rw [← he]
    cases p.vols.any (· = .emptyDir) <;> cases f.deleteLocalData <;> cases f.ignoreUncontrolled <;> cases f.ignoreDaemonsets <;> cases p.finished <;> cases hc : p.controller <;>
      simp <;> (by_cases hd : p.controller = some "DaemonSet" <;> simp_all)
  have hok : ∀ p : Pod, ¬ Objection f p → ((filters f p).all (·.1) = true ↔ p.mirror = false ∧ p.controller ≠ some "DaemonSet") := by
    intro p
    have he : p.vols.any (· = .emptyDir) = true ↔ Vol.emptyDir ∈ p.vols := by simp
    unfold filters mirrorFilter localFilter unreplicatedFilter daemonsetFilter Objection
    rw [← he]
    cases p.vols.any (· = .emptyDir) <;> cases f.deleteLocalData <;> cases f.ignoreUncontrolled <;> cases f.ignoreDaemonsets <;> cases p.finished <;> cases hc : p.controller <;>
      simp <;> (by_cases hd : p.controller = some "DaemonSet" <;> simp_all)
  unfold podsForDeletion
  constructor
  · constructor
    · intro h
      split at h
      · rename_i h1
        obtain ⟨p, hp, h2⟩ := List.any_eq_true.1 h1
        rw [List.mem_filter] at hp
        exact ⟨p, hp.1, by simpa using hp.2, (hfatal p).1 h2⟩
      · cases h
    · rintro ⟨p, hp, hn, ho⟩
      exact if_pos (List.any_eq_true.2 ⟨p, List.mem_filter.2 ⟨hp, by simpa using hn⟩, (hfatal p).2 ho⟩)
  · intro ps h p
    split at h
    · cases h
    · rename_i h1
      obtain rfl := Option.some.inj h
      rw [List.mem_filter, List.mem_filter]
      unfold Drainable
      by_cases hp : p ∈ cache ∧ p.node = node
      · have hno : ¬ Objection f p := fun ho => h1 (List.any_eq_true.2 ⟨p, List.mem_filter.2 ⟨hp.1, by simpa using hp.2⟩, (hfatal p).2 ho⟩)
        rw [hok p hno]
        simp [hp.1, hp.2]
      · constructor
        · rintro ⟨⟨a, b⟩, _⟩; exact absurd ⟨a, by simpa using b⟩ hp
        · rintro ⟨a, b, _⟩; exact absurd ⟨a, b⟩ hp

/-- both cases occur -/
example : podsForDeletion { flags with deleteLocalData := false } "n" [{ name := "p", uid := "1", node := "n", vols := [.emptyDir] }] = none ∧
    podsForDeletion { flags with ignoreUncontrolled := false } "n" [{ name := "p", uid := "1", node := "n", finished := true }] = some [{ name := "p", uid := "1", node := "n", finished := true }] := by
  decide +kernel

theorem splitPv_eq (ps : List Pod) : splitPv ps = (ps.filter hasPvc, ps.filter fun p => !hasPvc p) := by
  induction ps with
  | nil => rfl
  | cons p ps ih =>
    rw [splitPv, ih]
    by_cases h : hasPvc p = true
    · simp [h]
    · simp [h]

/-- C35: They are divided exactly into those with and those without claims. -/
theorem C35_split (ps : List Pod) : ((splitPv ps).1 ++ (splitPv ps).2).Perm ps ∧ (∀ p ∈ (splitPv ps).1, ∃ c, Vol.pvc c ∈ p.vols) ∧ (∀ p ∈ (splitPv ps).2, ∀ c, Vol.pvc c ∉ p.vols) := by
  rw [splitPv_eq]
  have hp : ∀ p, hasPvc p = true ↔ ∃ c, Vol.pvc c ∈ p.vols := by
    intro p
    unfold hasPvc
    rw [List.any_eq_true]
    constructor
    · rintro ⟨v, hv, h⟩
      cases v with
      | pvc c => exact ⟨c, hv⟩
      | emptyDir => cases h
      | other => cases h
    · rintro ⟨c, h⟩
      exact ⟨_, h, rfl⟩
  refine ⟨List.filter_append_perm _ _, fun p h => (hp p).1 (List.mem_filter.1 h).2, fun p h c hc => ?_⟩
  have := (List.mem_filter.1 h).2
  rw [(hp p).2 ⟨c, hc⟩] at this
  cases this

/-- C35, false part: Pods of a daemon set that no longer exists (`alive` says whether it does) stay on the node too. -/
theorem C35_orphaned_false : ¬ ∀ (alive : Pod → Bool) (node : String) (cache ps : List Pod), podsForDeletion flags node cache = some ps →
    ∀ p ∈ cache, p.node = node → p.mirror = false → (p.controller = some "DaemonSet" → alive p = false) → p ∈ ps := by
  intro h
  have := h (fun _ => false) "n" [{ name := "d", uid := "1", node := "n", controller := some "DaemonSet" }] [] (by decide +kernel) _ List.mem_cons_self rfl rfl (fun _ => rfl)
  cases this

/-- a daemon-set pod and one of a replica set -/
example : podsForDeletion flags "n" [{ name := "d", uid := "1", node := "n", controller := some "DaemonSet" }, { name := "r", uid := "2", node := "n", controller := some "ReplicaSet", vols := [.emptyDir] },
    { name := "o", uid := "3", node := "other" }] = some [{ name := "r", uid := "2", node := "n", controller := some "ReplicaSet", vols := [.emptyDir] }] := by decide +kernel

/-! ### C36 -/

/-- the pods results were sent for -/
def subjects (evs : List Ev) : List Pod := (results evs).map (·.1)

theorem results_append (a b : List Ev) : results (a ++ b) = results a ++ results b := by
  induction a with
  | nil => rfl
  | cons e a ih => cases e <;> simp [results, ih]

theorem subjects_append (a b : List Ev) : subjects (a ++ b) = subjects a ++ subjects b := by
  unfold subjects
  rw [results_append, List.map_append]

theorem subjects_map (ps : List Pod) (b : Bool) : subjects (ps.map (Ev.result · b)) = ps := by
  induction ps with
  | nil => rfl
  | cons p ps ih =>
    unfold subjects at ih ⊢
    rw [List.map_cons, results, List.map_cons, ih]

/-- the ways a visit can go -/
inductive Visit (attempt : Bool) (p : Pod) : List Ev → Next → Ans → Prop
  | timeout {a : Ans} : a.done = true → Visit attempt p [.result p true] .stop a
  | pdb {a : Ans} : attempt = true → Visit attempt p [.req p .evict .tooMany, .result p false] .settled a
  | refused {a : Ans} (v : Verb) (r : Resp) : v = (if attempt then .evict else .delete) → r = .tooMany ∨ r = .error → Visit attempt p [.req p v r] .retry a
  | gone {a : Ans} (v : Verb) : v = (if attempt then .evict else .delete) → Visit attempt p [.req p v .notFound, .result p true] .settled a
  | nodeGone {a : Ans} (v : Verb) : v = (if attempt then .evict else .delete) → Visit attempt p [.req p v .ok, .detach p .nodeGone, .result p true] .stop a
  | detachError {a : Ans} (v : Verb) : v = (if attempt then .evict else .delete) → Visit attempt p [.req p v .ok, .detach p .error, .result p false] .settled a
  | reattach {a : Ans} (v : Verb) (r : Reattach) (b : Bool) : v = (if attempt then .evict else .delete) → b = decide (r ≠ .error) → Visit attempt p [.req p v .ok, .detach p .ok, .reattach p r, .result p b] .settled a

theorem visit_cases (attempt : Bool) (a : Ans) (p : Pod) : Visit attempt p (visit attempt a p).1 (visit attempt a p).2 a := by
  unfold visit
  by_cases hd : a.done = true
  · rw [if_pos hd]; exact .timeout hd
  rw [if_neg hd]
  by_cases ht : (attempt && decide (a.resp = .tooMany)) = true
  · rw [if_pos ht]
    rw [Bool.and_eq_true] at ht
    by_cases hp : a.pdb = true
    · rw [if_pos hp]; exact .pdb ht.1
    · rw [if_neg hp]
      exact .refused .evict .tooMany (by rw [ht.1]; rfl) (.inl rfl)
  rw [if_neg ht]
  cases hr : a.resp with
  | notFound => exact .gone _ rfl
  | tooMany => exact .refused _ _ rfl (.inl rfl)
  | error => exact .refused _ _ rfl (.inr rfl)
  | ok =>
    unfold waits
    dsimp only
    cases hw : a.detach with
    | nodeGone => exact .nodeGone _ rfl
    | error => exact .detachError _ rfl
    | ok =>
      cases ha : a.reattach with
      | ok => exact .reattach _ .ok true rfl rfl
      | timeout => exact .reattach _ .timeout true rfl rfl
      | error => exact .reattach _ .error false rfl rfl

theorem internal_perm (attempt : Bool) (a : Pod → Ans) (ps : List Pod) : (subjects (internal attempt a ps).evs ++ (internal attempt a ps).rem).Perm ps := by
  induction ps with
  | nil => exact .refl _
  | cons p ps ih =>
    rw [internal]
    have hv := visit_cases attempt (a p) p
    revert hv
    generalize (visit attempt (a p) p).1 = ev
    generalize (visit attempt (a p) p).2 = nx
    intro hv
    have hone : (nx = .retry ∧ subjects ev = []) ∨ (nx ≠ .retry ∧ subjects ev = [p]) := by
      cases hv <;> first | exact .inl ⟨rfl, rfl⟩ | exact .inr ⟨(nomatch ·), rfl⟩
    cases nx with
    | retry =>
      rcases hone with ⟨_, h⟩ | ⟨h, _⟩
      · dsimp only
        rw [subjects_append, h, List.nil_append]
        exact List.perm_middle.trans (ih.cons p)
      · exact absurd rfl h
    | settled =>
      rcases hone with ⟨h, _⟩ | ⟨_, h⟩
      · cases h
      · dsimp only
        rw [subjects_append, h]
        exact ih.cons p
    | stop =>
      rcases hone with ⟨h, _⟩ | ⟨_, h⟩
      · cases h
      · dsimp only
        rw [h]
        exact .refl _

theorem rounds_perm (a : Nat → Pod → Ans) (n : Nat) : ∀ (r : Nat) (ps : List Pod), (subjects (rounds a r (n + 1) ps).evs ++ (rounds a r (n + 1) ps).rem).Perm ps := by
  induction n with
  | zero =>
    intro r ps
    rw [rounds, if_pos (by simp)]
    exact internal_perm true (a r) ps
  | succ n ih =>
    intro r ps
    rw [rounds]
    split
    · exact internal_perm true (a r) ps
    · dsimp only
      rw [subjects_append, List.append_assoc]
      exact ((List.Perm.refl _).append (ih (r + 1) _)).trans (internal_perm true (a r) ps)

theorem withPv_perm (attempt : Bool) (n : Nat) (a : Nat → Pod → Ans) (ps : List Pod) (h : attempt = false ∨ 0 < n) : (subjects (withPv attempt n a ps)).Perm ps := by
  unfold withPv
  cases attempt with
  | false =>
    rw [if_neg (by decide), subjects_append, subjects_map]
    exact internal_perm false (a 0) ps
  | true =>
    rw [if_pos rfl]
    obtain ⟨n, rfl⟩ : ∃ m, n = m + 1 := by
      rcases h with h | h
      · cases h
      · exact ⟨n - 1, by omega⟩
    split
    · rw [subjects_append, subjects_append, subjects_map, List.append_assoc]
      exact ((List.Perm.refl _).append (internal_perm false _ _)).trans (rounds_perm a n 0 ps)
    · rw [subjects_append, subjects_map]
      exact rounds_perm a n 0 ps

theorem noPv_subjects (attempt force : Bool) (a : Ans1) (p : Pod) : ∀ n i, subjects (noPv attempt force a p i n) = [p] := by
  have haft : subjects (afterNoPv force a p) = [p] := by
    unfold afterNoPv
    split <;> rfl
  intro n
  induction n with
  | zero =>
    intro i
    rw [noPv]
    cases a.resp i with
    | ok => exact haft
    | _ => rfl
  | succ n ih =>
    intro i
    rw [noPv]
    split
    · cases a.resp i with
      | ok => exact haft
      | tooMany =>
        dsimp only
        split
        · rfl
        · exact ih (i + 1)
      | _ => rfl
    · cases a.resp i with
      | ok => exact haft
      | _ => rfl

/-- C36: If the number of evictions is not zero (or evictions are not used), exactly one result is sent for each pod, whatever the order in
which the parallel parts make progress. -/
theorem C36_one_result_partial (force supported : Bool) (n : Nat) (a : Nat → Pod → Ans) (a1 : Pod → Ans1) (ps sorted : List Pod)
    (hs : Sorted (splitPv ps).1 sorted) (hn : attempts force supported = false ∨ 0 < n) :
    (subjects (processes force (attempts force supported) n a a1 ps sorted).flatten).Perm ps := by
  have hmap : ∀ qs : List Pod, subjects (qs.map fun p => noPv (attempts force supported) force (a1 p) p 0 n).flatten = qs := by
    intro qs
    induction qs with
    | nil => rfl
    | cons q qs ih => rw [List.map_cons, List.flatten_cons, subjects_append, ih, noPv_subjects]; rfl
  unfold processes
  split
  · rw [hmap]
  · rw [List.flatten_cons, subjects_append, hmap]
    exact (((withPv_perm _ n a sorted hn).trans hs.1).append (List.Perm.refl _)).trans (C35_split ps).1

/-- C36: So the drain neither blocks nor sends to a closed channel, and it succeeds iff all results are successes. -/
theorem C36_ends_partial (force supported : Bool) (n : Nat) (a : Nat → Pod → Ans) (a1 : Pod → Ans1) (ps sorted : List Pod)
    (hs : Sorted (splitPv ps).1 sorted) (hn : attempts force supported = false ∨ 0 < n) (rs : List (Pod × Bool))
    (hrs : rs.Perm (results (processes force (attempts force supported) n a a1 ps sorted).flatten)) :
    collect ps.length rs = if rs.all (·.2) then .success else .failure := by
  have h1 := (C36_one_result_partial force supported n a a1 ps sorted hs hn).length_eq
  unfold subjects at h1
  rw [List.length_map] at h1
  have h2 := hrs.length_eq
  unfold collect
  rw [if_neg (by omega), if_neg (by omega)]

/-- the number of evictions is zero for drain timeouts below twenty seconds -/
example : retries false 10 19 = 0 := rfl

/-- C36, false part: If the number of evictions is zero, which happens for drain timeouts below twenty seconds and for `maxEvictRetries: 0`,
no result is sent for pods with volumes: the drain waits for ever, not even ended by its timeout. -/
theorem C36_no_evictions_false (a : Nat → Pod → Ans) (a1 : Pod → Ans1) (ps sorted : List Pod)
    (hpv : ∃ p ∈ ps, ∃ c, Vol.pvc c ∈ p.vols) (rs : List (Pod × Bool)) (hrs : rs.Perm (results (processes false (attempts false true) 0 a a1 ps sorted).flatten)) :
    collect ps.length rs = .blocked := by
  have hmap : ∀ qs : List Pod, subjects (qs.map fun p => noPv true false (a1 p) p 0 0).flatten = qs := by
    intro qs
    induction qs with
    | nil => rfl
    | cons q qs ih => rw [List.map_cons, List.flatten_cons, subjects_append, ih, noPv_subjects]; rfl
  have h0 : subjects (processes false (attempts false true) 0 a a1 ps sorted).flatten = (splitPv ps).2 := by
    unfold processes
    rw [if_neg (by decide), List.flatten_cons, subjects_append]
    exact hmap _
  have h1 : rs.length = (splitPv ps).2.length := by
    rw [← h0, hrs.length_eq]
    unfold subjects
    rw [List.length_map]
  have h2 : (splitPv ps).2.length < ps.length := by
    have := (C35_split ps).1.length_eq
    rw [List.length_append] at this
    obtain ⟨p, hp, c, hc⟩ := hpv
    have : p ∈ (splitPv ps).1 := by
      rcases List.mem_append.1 ((C35_split ps).1.mem_iff.2 hp) with h | h
      · exact h
      · exact absurd hc ((C35_split ps).2.2 p h c)
    have := List.length_pos_of_mem this
    omega
  unfold collect
  rw [if_pos (by omega)]

/-- C36, false part: Two pods with volumes, one of them without a priority, make the controller panic. -/
theorem C36_priority_false : ¬ ∀ ps : List Pod, sortPanics (splitPv ps).1 = false := by
  intro h
  have := h [{ name := "a", uid := "1", node := "n", vols := [.pvc "x"] }, { name := "b", uid := "2", node := "n", vols := [.pvc "y"], priority := none }]
  revert this
  decide

/-- pods of the same priority come in any order -/
example : Sorted [{ name := "a", uid := "1", node := "n", priority := some 2 }, { name := "b", uid := "2", node := "n", priority := some 2 }]
    [{ name := "b", uid := "2", node := "n", priority := some 2 }, { name := "a", uid := "1", node := "n", priority := some 2 }] := by
  refine ⟨List.Perm.swap _ _ _, ?_⟩
  refine List.Pairwise.cons ?_ (List.Pairwise.cons (by simp) List.Pairwise.nil)
  intro q hq a b h1 h2
  rw [List.mem_singleton] at hq
  subst hq
  cases h1; cases h2; decide

example : Sorted [{ name := "a", uid := "1", node := "n", priority := some 1 }, { name := "b", uid := "2", node := "n", priority := some 2 }]
    [{ name := "b", uid := "2", node := "n", priority := some 2 }, { name := "a", uid := "1", node := "n", priority := some 1 }] := by
  refine ⟨List.Perm.swap _ _ _, ?_⟩
  refine List.Pairwise.cons ?_ (List.Pairwise.cons (by simp) List.Pairwise.nil)
  intro q hq a b h1 h2
  rw [List.mem_singleton] at hq
  subst hq
  cases h1; cases h2; decide

/-! ### C37 -/

/-- the answers to the requests of one kind for one pod, in order -/
def answers (v : Verb) (p : Pod) : List Ev → List Resp
  | [] => []
  | .req q w r :: evs => if q = p ∧ w = v then r :: answers v p evs else answers v p evs
  | _ :: evs => answers v p evs

theorem answers_append (v : Verb) (p : Pod) (a b : List Ev) : answers v p (a ++ b) = answers v p a ++ answers v p b := by
  induction a with
  | nil => rfl
  | cons e a ih =>
    cases e with
    | req q w r =>
      rw [List.cons_append, answers, answers]
      split
      · rw [ih]; rfl
      · exact ih
    | _ => simp [answers, ih]

theorem answers_map (v : Verb) (p : Pod) (ps : List Pod) (b : Bool) : answers v p (ps.map (Ev.result · b)) = [] := by
  induction ps with
  | nil => rfl
  | cons q ps ih => exact ih

/-- refused: the pod is still there -/
def Refused (r : Resp) : Prop := r = .tooMany ∨ r = .error

theorem internal_rem (attempt : Bool) (a : Pod → Ans) (ps : List Pod) : (internal attempt a ps).rem.Sublist ps := by
  induction ps with
  | nil => exact .refl _
  | cons p ps ih =>
    rw [internal]
    split
    · exact List.sublist_cons_self _ _
    · exact ih.trans (List.sublist_cons_self _ _)
    · exact ih.cons_cons p

theorem visit_answers_other (attempt : Bool) (a : Ans) (p q : Pod) (v : Verb) (h : q ≠ p) : answers v q (visit attempt a p).1 = [] := by
  have hv := visit_cases attempt a p
  revert hv
  generalize (visit attempt a p).1 = ev
  generalize (visit attempt a p).2 = nx
  intro hv
  have hne : ∀ w, ¬ (p = q ∧ w = v) := fun w h' => h h'.1.symm
  cases hv <;> simp [answers, hne]

theorem visit_answers_verb (attempt : Bool) (a : Ans) (p q : Pod) (v : Verb) (h : v ≠ if attempt then .evict else .delete) : answers v q (visit attempt a p).1 = [] := by
  have hv := visit_cases attempt a p
  revert hv
  generalize (visit attempt a p).1 = ev
  generalize (visit attempt a p).2 = nx
  intro hv
  cases hv with
  | timeout => rfl
  | pdb ha =>
    subst ha
    have : ¬ (p = q ∧ Verb.evict = v) := fun h' => h h'.2.symm
    simp [answers, this]
  | refused w r hw | gone w hw | nodeGone w hw | detachError w hw | reattach w r b hw =>
    have : ¬ (p = q ∧ w = v) := fun h' => h (h'.2.symm.trans hw)
    simp [answers, this]

theorem visit_answers_le (attempt : Bool) (a : Ans) (p q : Pod) (v : Verb) : (answers v q (visit attempt a p).1).length ≤ 1 := by
  have hv := visit_cases attempt a p
  revert hv
  generalize (visit attempt a p).1 = ev
  generalize (visit attempt a p).2 = nx
  intro hv
  cases hv <;> simp only [answers] <;> (try split) <;> simp

theorem visit_answers_retry (attempt : Bool) (a : Ans) (p : Pod) (h : (visit attempt a p).2 = .retry) :
    ∃ r, Refused r ∧ answers (if attempt then .evict else .delete) p (visit attempt a p).1 = [r] := by
  have hv := visit_cases attempt a p
  revert hv h
  generalize (visit attempt a p).1 = ev
  generalize (visit attempt a p).2 = nx
  intro h hv
  cases hv with
  | refused w r hw hr => subst hw; exact ⟨r, hr, by simp [answers]⟩
  | _ => cases h

theorem internal_answers_verb (attempt : Bool) (a : Pod → Ans) (q : Pod) (v : Verb) (h : v ≠ if attempt then .evict else .delete) (ps : List Pod) :
    answers v q (internal attempt a ps).evs = [] := by
  induction ps with
  | nil => rfl
  | cons p ps ih =>
    rw [internal]
    have h1 := visit_answers_verb attempt (a p) p q v h
    split <;> simp [answers_append, h1, ih]

theorem internal_answers_other (attempt : Bool) (a : Pod → Ans) (q : Pod) (v : Verb) (ps : List Pod) (h : q ∉ ps) :
    answers v q (internal attempt a ps).evs = [] := by
  induction ps with
  | nil => rfl
  | cons p ps ih =>
    have h1 := visit_answers_other attempt (a p) p q v (fun h' => h (h' ▸ List.mem_cons_self))
    have h2 := ih (fun h' => h (List.mem_cons_of_mem _ h'))
    rw [internal]
    split <;> simp [answers_append, h1, h2]

theorem internal_answers_le (attempt : Bool) (a : Pod → Ans) (q : Pod) (v : Verb) (ps : List Pod) (hn : ps.Nodup) :
    (answers v q (internal attempt a ps).evs).length ≤ 1 := by
  induction ps with
  | nil => exact Nat.zero_le _
  | cons p ps ih =>
    obtain ⟨hp, hn⟩ := List.nodup_cons.1 hn
    rw [internal]
    by_cases hq : q = p
    · subst hq
      have h1 := visit_answers_le attempt (a q) q q v
      have h2 := internal_answers_other attempt a q v ps hp
      split <;> simp [answers_append, h2, h1]
    · have h1 := visit_answers_other attempt (a p) p q v hq
      have h2 := ih hn
      split <;> simp [answers_append, h1, h2]

theorem internal_answers_rem (a : Pod → Ans) (q : Pod) (ps : List Pod) (hn : ps.Nodup) (hf : (internal true a ps).fast = false) (hq : q ∈ (internal true a ps).rem) :
    ∃ r, Refused r ∧ answers .evict q (internal true a ps).evs = [r] := by
  induction ps with
  | nil => cases hq
  | cons p ps ih =>
    obtain ⟨hp, hn⟩ := List.nodup_cons.1 hn
    rw [internal] at hf hq ⊢
    have hsub := internal_rem true a ps
    cases hv : (visit true (a p) p).2 with
    | stop => rw [hv] at hf; cases hf
    | settled =>
      rw [hv] at hf hq
      dsimp only at hf hq ⊢
      have hne : q ≠ p := fun h => hp (h ▸ hsub.subset hq)
      rw [answers_append, visit_answers_other true (a p) p q .evict hne]
      exact ih hn hf hq
    | retry =>
      rw [hv] at hf hq
      dsimp only at hf hq ⊢
      rcases List.mem_cons.1 hq with rfl | hq
      · obtain ⟨r, hr, h⟩ := visit_answers_retry true (a q) q hv
        refine ⟨r, hr, ?_⟩
        rw [answers_append, internal_answers_other true a q .evict ps hp]
        simpa using h
      · have hne : q ≠ p := fun h => hp (h ▸ hsub.subset hq)
        rw [answers_append, visit_answers_other true (a p) p q .evict hne]
        exact ih hn hf hq

theorem rounds_rem (a : Nat → Pod → Ans) (n : Nat) : ∀ (r : Nat) (ps : List Pod), (rounds a r n ps).rem.Sublist ps := by
  induction n with
  | zero => intro r ps; rw [rounds]; exact List.nil_sublist _
  | succ n ih =>
    intro r ps
    rw [rounds]
    split
    · exact internal_rem true (a r) ps
    · exact (ih (r + 1) _).trans (internal_rem true (a r) ps)

theorem rounds_no_delete (a : Nat → Pod → Ans) (q : Pod) (n : Nat) : ∀ (r : Nat) (ps : List Pod), answers .delete q (rounds a r n ps).evs = [] := by
  induction n with
  | zero => intro r ps; rw [rounds]; rfl
  | succ n ih =>
    intro r ps
    have h := internal_answers_verb true (a r) q .delete (fun h => (nomatch h)) ps
    rw [rounds]
    split
    · exact h
    · dsimp only
      rw [answers_append, h, ih]; rfl

theorem rounds_answers_le (a : Nat → Pod → Ans) (q : Pod) (n : Nat) : ∀ (r : Nat) (ps : List Pod), ps.Nodup → (answers .evict q (rounds a r n ps).evs).length ≤ n := by
  induction n with
  | zero => intro r ps _; rw [rounds]; exact Nat.zero_le _
  | succ n ih =>
    intro r ps hn
    have h := internal_answers_le true (a r) q .evict ps hn
    rw [rounds]
    split
    · omega
    · dsimp only
      rw [answers_append, List.length_append]
      have := ih (r + 1) _ ((internal_rem true (a r) ps).nodup hn)
      omega

theorem rounds_answers_rem (a : Nat → Pod → Ans) (q : Pod) (n : Nat) : ∀ (r : Nat) (ps : List Pod), ps.Nodup → (rounds a r n ps).fast = false → q ∈ (rounds a r n ps).rem →
    (answers .evict q (rounds a r n ps).evs).length = n ∧ ∀ x ∈ answers .evict q (rounds a r n ps).evs, Refused x := by
  induction n with
  | zero => intro r ps _ _ h; rw [rounds] at h; cases h
  | succ n ih =>
    intro r ps hn hf hq
    rw [rounds] at hf hq ⊢
    split at hf
    · rename_i hc
      rw [if_pos hc] at hq ⊢
      obtain ⟨x, hx, h⟩ := internal_answers_rem (a r) q ps hn hf hq
      have hn0 : n = 0 := by
        rw [Bool.or_eq_true, Bool.or_eq_true] at hc
        rcases hc with (h | h) | h
        · rw [hf] at h; cases h
        · rw [List.isEmpty_iff] at h; rw [h] at hq; cases hq
        · exact of_decide_eq_true h
      rw [h]
      refine ⟨by simp [hn0], fun y hy => ?_⟩
      rw [List.mem_singleton] at hy
      exact hy ▸ hx
    · rename_i hc
      rw [if_neg hc] at hq ⊢
      dsimp only at hf hq ⊢
      have hnr := (internal_rem true (a r) ps).nodup hn
      have hq1 := (rounds_rem a n (r + 1) _).subset hq
      have hf1 : (internal true (a r) ps).fast = false := by
        rw [Bool.or_eq_true, Bool.or_eq_true] at hc
        cases h : (internal true (a r) ps).fast with
        | false => rfl
        | true => exact absurd (.inl (.inl h)) hc
      obtain ⟨x, hx, h⟩ := internal_answers_rem (a r) q ps hn hf1 hq1
      obtain ⟨h1, h2⟩ := ih (r + 1) _ hnr hf hq
      rw [answers_append, h]
      refine ⟨by rw [List.length_append, h1]; simp; omega, fun y hy => ?_⟩
      rcases List.mem_append.1 hy with hy | hy
      · rw [List.mem_singleton] at hy; exact hy ▸ hx
      · exact h2 y hy

theorem mem_answers {v : Verb} {p : Pod} {r : Resp} {evs : List Ev} (h : Ev.req p v r ∈ evs) : r ∈ answers v p evs := by
  induction evs with
  | nil => cases h
  | cons e evs ih =>
    rcases List.mem_cons.1 h with rfl | h'
    · rw [answers, if_pos ⟨rfl, rfl⟩]; exact List.mem_cons_self
    · have h2 := ih h'
      cases e with
      | req q w r' =>
        rw [answers]
        split
        · exact List.mem_cons_of_mem _ h2
        · exact h2
      | _ => exact h2

/-- the trace of pods with volumes: evictions first, then deletions of pods refused every time -/
theorem withPv_split (n : Nat) (a : Nat → Pod → Ans) (ps : List Pod) (hn : ps.Nodup) :
    ∃ A B, withPv true n a ps = A ++ B ∧ (∀ q, answers .delete q A = []) ∧ (∀ q, answers .evict q B = []) ∧ (∀ q, (answers .evict q A).length ≤ n) ∧
      ∀ q, answers .delete q B ≠ [] → (answers .evict q A).length = n ∧ (∀ x ∈ answers .evict q A, Refused x) ∧ (answers .delete q B).length = 1 := by
  unfold withPv
  rw [if_pos rfl]
  split
  · rename_i hc
    rw [Bool.and_eq_true] at hc
    have hf : (rounds a 0 n ps).fast = false := by simpa using hc.1
    refine ⟨(rounds a 0 n ps).evs, (internal false (a n) (rounds a 0 n ps).rem).evs ++ (internal false (a n) (rounds a 0 n ps).rem).rem.map (Ev.result · false), by rw [List.append_assoc],
      fun q => rounds_no_delete a q n 0 ps, fun q => ?_, fun q => rounds_answers_le a q n 0 ps hn, fun q hq => ?_⟩
    · rw [answers_append, answers_map, internal_answers_verb false (a n) q .evict (fun h => (nomatch h))]; rfl
    · rw [answers_append, answers_map, List.append_nil] at hq ⊢
      have hmem : q ∈ (rounds a 0 n ps).rem := by
        by_cases h : q ∈ (rounds a 0 n ps).rem
        · exact h
        · exact absurd (internal_answers_other false (a n) q .delete _ h) hq
      obtain ⟨h1, h2⟩ := rounds_answers_rem a q n 0 ps hn hf hmem
      refine ⟨h1, h2, ?_⟩
      have := internal_answers_le false (a n) q .delete _ ((rounds_rem a n 0 ps).nodup hn)
      have := List.length_pos_iff.2 hq
      omega
  · refine ⟨(rounds a 0 n ps).evs ++ (rounds a 0 n ps).rem.map (Ev.result · (rounds a 0 n ps).fast), [], by rw [List.append_nil], fun q => ?_, fun q => rfl, fun q => ?_, fun q hq => absurd rfl hq⟩
    · rw [answers_append, answers_map, rounds_no_delete]; rfl
    · rw [answers_append, answers_map, List.append_nil]
      exact rounds_answers_le a q n 0 ps hn

/-- C37: Pods with volumes: before a pod is deleted its eviction was refused exactly the configured number of times, and not accepted. -/
theorem C37_with_volumes (n : Nat) (a : Nat → Pod → Ans) (ps : List Pod) (hn : ps.Nodup) (pre post : List Ev) (p : Pod) (r : Resp)
    (h : withPv true n a ps = pre ++ Ev.req p .delete r :: post) : (answers .evict p pre).length = n ∧ ∀ x ∈ answers .evict p pre, Refused x := by
  obtain ⟨A, B, hAB, hA, hB, _, hdel⟩ := withPv_split n a ps hn
  rw [hAB] at h
  rcases List.append_eq_append_iff.1 h with ⟨c, h1, h2⟩ | ⟨c, h1, h2⟩
  · -- `A` is a beginning of `pre`
    have hd : answers .delete p B ≠ [] := by
      intro h0
      have : r ∈ answers .delete p B := mem_answers (by rw [h2]; simp)
      rw [h0] at this
      cases this
    have hc : answers .evict p c = [] := by
      have := hB p
      rw [h2, answers_append] at this
      exact (List.append_eq_nil_iff.1 this).1
    rw [h1, answers_append, hc, List.append_nil]
    exact ⟨(hdel p hd).1, (hdel p hd).2.1⟩
  · cases c with
    | nil =>
      rw [List.append_nil] at h1
      rw [List.nil_append] at h2
      have hd : answers .delete p B ≠ [] := by
        intro h0
        have : r ∈ answers .delete p B := mem_answers (by rw [← h2]; exact List.mem_cons_self)
        rw [h0] at this
        cases this
      rw [← h1]
      exact ⟨(hdel p hd).1, (hdel p hd).2.1⟩
    | cons e c =>
      rw [List.cons_append] at h2
      injection h2 with h2 _
      have : r ∈ answers .delete p A := mem_answers (by rw [h1, ← h2]; simp)
      rw [hA p] at this
      cases this

/-- C37: and no pod is evicted more often, or deleted more than once. -/
theorem C37_budget_with_volumes (n : Nat) (a : Nat → Pod → Ans) (ps : List Pod) (hn : ps.Nodup) (p : Pod) :
    (answers .evict p (withPv true n a ps)).length ≤ n ∧ (answers .delete p (withPv true n a ps)).length ≤ 1 := by
  obtain ⟨A, B, hAB, hA, hB, hle, hdel⟩ := withPv_split n a ps hn
  rw [hAB, answers_append, answers_append, hB, hA, List.append_nil, List.nil_append]
  refine ⟨hle p, ?_⟩
  by_cases h : answers .delete p B = []
  · rw [h]; exact Nat.zero_le _
  · rw [(hdel p h).2.2]; exact Nat.le_refl _

theorem afterNoPv_no_req (force : Bool) (a : Ans1) (p q : Pod) (v : Verb) (r : Resp) : Ev.req q v r ∉ afterNoPv force a p := by
  unfold afterNoPv
  split <;> simp

/-- C37: Pods without volumes: the same, refusals being "too many requests" only; any other error ends the attempts. -/
theorem C37_without_volumes (force : Bool) (a : Ans1) (p : Pod) (n : Nat) : ∀ (i : Nat) (pre post : List Ev) (r : Resp), noPv true force a p i n = pre ++ Ev.req p .delete r :: post →
    (answers .evict p pre).length = n ∧ ∀ x ∈ answers .evict p pre, x = .tooMany := by
  induction n with
  | zero =>
    intro i pre post r h
    rw [noPv] at h
    cases pre with
    | nil => exact ⟨rfl, fun x hx => (nomatch hx)⟩
    | cons e pre =>
      rw [List.cons_append] at h
      injection h with _ h
      have hmem : Ev.req p .delete r ∈ pre ++ Ev.req p .delete r :: post := by simp
      rw [← h] at hmem
      cases hr : a.resp i <;> rw [hr] at hmem
      · exact absurd hmem (afterNoPv_no_req force a p p _ _)
      all_goals simp at hmem
  | succ n ih =>
    intro i pre post r h
    rw [noPv, if_pos rfl] at h
    cases pre with
    | nil => injection h with h _; cases h
    | cons e pre =>
      rw [List.cons_append] at h
      injection h with h1 h
      have hmem : Ev.req p .delete r ∈ pre ++ Ev.req p .delete r :: post := by simp
      cases hr : a.resp i with
      | ok => rw [hr] at h; rw [← h] at hmem; exact absurd hmem (afterNoPv_no_req force a p p _ _)
      | notFound => rw [hr] at h; rw [← h] at hmem; simp at hmem
      | error => rw [hr] at h; rw [← h] at hmem; simp at hmem
      | tooMany =>
        rw [hr] at h h1
        dsimp only at h
        split at h
        · rw [← h] at hmem; simp at hmem
        · obtain ⟨h2, h3⟩ := ih (i + 1) pre post r h
          subst h1
          rw [answers, if_pos ⟨rfl, rfl⟩]
          refine ⟨by rw [List.length_cons, h2], fun x hx => ?_⟩
          rcases List.mem_cons.1 hx with rfl | hx
          · rfl
          · exact h3 x hx

/-- C37: with the same budget. -/
theorem C37_budget_without_volumes (attempt force : Bool) (a : Ans1) (p q : Pod) (n : Nat) : ∀ i : Nat, (answers .evict q (noPv attempt force a p i n)).length ≤ n := by
  have haft : answers .evict q (afterNoPv force a p) = [] := by
    unfold afterNoPv
    split <;> rfl
  induction n with
  | zero =>
    intro i
    rw [noPv, answers, if_neg (fun h => (nomatch h.2))]
    cases a.resp i with
    | ok => rw [haft]; exact Nat.zero_le _
    | _ => exact Nat.zero_le _
  | succ n ih =>
    intro i
    have hs : ∀ l : List Ev, (answers .evict q l).length ≤ n → (answers .evict q (Ev.req p .evict (a.resp i) :: l)).length ≤ n + 1 := by
      intro l hl
      rw [answers]
      split
      · rw [List.length_cons]; omega
      · omega
    rw [noPv]
    split
    · apply hs
      cases a.resp i with
      | ok => rw [haft]; exact Nat.zero_le _
      | tooMany =>
        dsimp only
        split
        · exact Nat.zero_le _
        · exact ih (i + 1)
      | _ => exact Nat.zero_le _
    · rw [answers, if_neg (fun h => (nomatch h.2))]
      cases a.resp i with
      | ok => rw [haft]; exact Nat.zero_le _
      | _ => exact Nat.zero_le _

/-- C37: Without force and with a server that supports it, evictions are attempted. -/
theorem C37_attempted : attempts false true = true ∧ ∀ s, attempts true s = false := ⟨rfl, fun _ => rfl⟩

/-- C37: A forced drain asks once for the deletion of each pod and for no eviction, whatever the number of evictions configured. -/
theorem C37_forced (supported : Bool) (n : Nat) (a : Nat → Pod → Ans) (a1 : Pod → Ans1) (ps sorted : List Pod) :
    processes true (attempts true supported) n a a1 ps sorted = ps.map fun p => Ev.req p .delete ((a1 p).resp 0) :: [Ev.result p (decide ((a1 p).resp 0 = .ok ∨ (a1 p).resp 0 = .notFound))] := by
  have one : ∀ p, noPv false true (a1 p) p 0 n = Ev.req p .delete ((a1 p).resp 0) :: [Ev.result p (decide ((a1 p).resp 0 = .ok ∨ (a1 p).resp 0 = .notFound))] := by
    intro p
    cases n with
    | zero => rw [noPv]; cases h : (a1 p).resp 0 <;> rfl
    | succ n => rw [noPv, if_neg (by decide)]; cases h : (a1 p).resp 0 <;> rfl
  unfold processes
  rw [if_pos rfl]
  exact List.map_congr_left fun p _ => one p

/-- the API server says that it serves evictions -/
def Serves (gs : List Group) (rs : List Resource) : Prop :=
  (∃ g ∈ gs, g.name = "policy" ∧ g.preferred ≠ "") ∧ ∃ r ∈ rs, r.name = "pods/eviction" ∧ r.kind = "Eviction"

/-- C37: If the API server answers, evictions are attempted exactly if it serves them and the deletion is not forced; otherwise the pods are deleted directly. -/
theorem C37_served (force : Bool) (gs : List Group) (rs : List Resource) (hu : (gs.map (·.name)).Nodup) :
    ∃ b, handOver force (some gs) (some rs) = some b ∧ (b = true ↔ force = false ∧ Serves gs rs) := by
  have find : ∀ (l : List Group), (l.map (·.name)).Nodup → ∀ g ∈ l, g.name = "policy" → l.find? (·.name == "policy") = some g := by
    intro l
    induction l with
    | nil => intro _ g hg; cases hg
    | cons a l ih =>
      intro hu g hg hn
      rw [List.map_cons, List.nodup_cons] at hu
      rcases List.mem_cons.1 hg with rfl | hg
      · rw [List.find?_cons_of_pos (by simpa using hn)]
      · rw [List.find?_cons_of_neg, ih hu.2 g hg hn]
        intro ha
        exact hu.1 (List.mem_map.2 ⟨g, hg, by rw [hn]; exact (by simpa using ha : a.name = "policy").symm⟩)
  unfold handOver supportEviction attempts
  dsimp only
  cases hf : gs.find? (·.name == "policy") with
  | none =>
    dsimp only
    refine ⟨_, rfl, ?_⟩
    have hno : ¬ Serves gs rs := by
      rintro ⟨⟨g, hg, hn, _⟩, _⟩
      exact List.find?_eq_none.1 hf g hg (by simpa using hn)
    simp [hno]
  | some g =>
    have hn : g.name = "policy" := by simpa using List.find?_some hf
    have hg := List.mem_of_find?_eq_some hf
    dsimp only
    by_cases hr : ∃ r ∈ rs, r.name = "pods/eviction" ∧ r.kind = "Eviction"
    · have hany : (rs.any fun r => r.name == "pods/eviction" && r.kind == "Eviction") = true := by
        obtain ⟨r, h1, h2, h3⟩ := hr
        exact List.any_eq_true.2 ⟨r, h1, by simp [h2, h3]⟩
      rw [if_pos hany]
      refine ⟨_, rfl, ?_⟩
      have : Serves gs rs ↔ g.preferred ≠ "" := by
        refine ⟨fun ⟨⟨x, hx, hxn, hxp⟩, _⟩ => ?_, fun h => ⟨⟨g, hg, hn, h⟩, hr⟩⟩
        have := find gs hu x hx hxn
        rw [hf] at this
        rw [Option.some.inj this]; exact hxp
      rw [this]
      simp
    · have hany : (rs.any fun r => r.name == "pods/eviction" && r.kind == "Eviction") = false := by
        rw [List.any_eq_false]
        intro r h1 h2
        simp only [Bool.and_eq_true, beq_iff_eq] at h2
        exact hr ⟨r, h1, h2⟩
      rw [if_neg (by rw [hany]; decide)]
      refine ⟨_, rfl, ?_⟩
      have hno : ¬ Serves gs rs := fun h => hr h.2
      simp [hno]

/-- C37: If it does not answer, no pod is asked to leave, and the drain fails, also a forced one, which would not need evictions. -/
theorem C37_no_discovery (force : Bool) (resources : Option (List Resource)) :
    handOver force none resources = none ∧ ∀ gs : List Group, (∃ g ∈ gs, g.name = "policy") → handOver force (some gs) none = none := by
  refine ⟨rfl, fun gs ⟨g, hg, hn⟩ => ?_⟩
  unfold handOver supportEviction
  dsimp only
  cases hf : gs.find? (·.name == "policy") with
  | none => exact absurd (by simpa using hn) (List.find?_eq_none.1 hf g hg)
  | some _ => rfl

example : handOver false (some [⟨"apps", "apps/v1"⟩, ⟨"policy", "policy/v1"⟩]) (some [⟨"pods", "Pod"⟩, ⟨"pods/eviction", "Eviction"⟩]) = some true := by decide
example : handOver false (some [⟨"apps", "apps/v1"⟩, ⟨"policy", "policy/v1"⟩]) (some [⟨"pods", "Pod"⟩]) = some false := by decide

/-- refused twice, then deleted -/
example : withPv true 2 (fun _ _ => { resp := .tooMany }) [{ name := "a", uid := "1", node := "n" }] =
    [.req { name := "a", uid := "1", node := "n" } .evict .tooMany, .req { name := "a", uid := "1", node := "n" } .evict .tooMany, .req { name := "a", uid := "1", node := "n" } .delete .tooMany,
      .result { name := "a", uid := "1", node := "n" } false] := by decide +kernel

/-! ### C69 -/

/-- the server has accepted to remove the pod, or the pod was gone already -/
def Removed (evs : List Ev) (p : Pod) : Prop := ∃ v r, Ev.req p v r ∈ evs ∧ (r = .ok ∨ r = .notFound)

/-- the node was found to be gone -/
def NodeGone (evs : List Ev) : Prop := ∃ q, Ev.detach q .nodeGone ∈ evs

theorem Removed.mono {a b : List Ev} {p : Pod} (h : Removed a p) (hs : ∀ e ∈ a, e ∈ b) : Removed b p := by
  obtain ⟨v, r, h1, h2⟩ := h
  exact ⟨v, r, hs _ h1, h2⟩

theorem NodeGone.mono {a b : List Ev} (h : NodeGone a) (hs : ∀ e ∈ a, e ∈ b) : NodeGone b := by
  obtain ⟨q, h⟩ := h
  exact ⟨q, hs _ h⟩

theorem visit_success (attempt : Bool) (a : Ans) (p q : Pod) (hd : a.done = false) :
    (Ev.result q true ∈ (visit attempt a p).1 → Removed (visit attempt a p).1 q) ∧ ((visit attempt a p).2 = .stop → NodeGone (visit attempt a p).1) := by
  have hv := visit_cases attempt a p
  revert hv
  generalize (visit attempt a p).1 = ev
  generalize (visit attempt a p).2 = nx
  intro hv
  cases hv with
  | timeout h => rw [hd] at h; cases h
  | pdb _ => exact ⟨fun h => by simp at h, (nomatch ·)⟩
  | refused _ _ _ _ => exact ⟨fun h => by simp at h, (nomatch ·)⟩
  | gone v _ =>
    refine ⟨fun h => ?_, (nomatch ·)⟩
    have : q = p := by simpa using h
    exact ⟨v, .notFound, by simp [this], .inr rfl⟩
  | nodeGone v _ =>
    refine ⟨fun h => ?_, fun _ => ⟨p, by simp⟩⟩
    have : q = p := by simpa using h
    exact ⟨v, .ok, by simp [this], .inl rfl⟩
  | detachError _ _ => exact ⟨fun h => by simp at h, (nomatch ·)⟩
  | reattach v r b _ hb =>
    refine ⟨fun h => ?_, (nomatch ·)⟩
    have : q = p ∧ true = b := by simpa using h
    exact ⟨v, .ok, by simp [this.1], .inl rfl⟩

theorem internal_success (attempt : Bool) (a : Pod → Ans) (q : Pod) (ps : List Pod) (hd : ∀ p ∈ ps, (a p).done = false) :
    (Ev.result q true ∈ (internal attempt a ps).evs → Removed (internal attempt a ps).evs q) ∧ ((internal attempt a ps).fast = true → NodeGone (internal attempt a ps).evs) := by
  induction ps with
  | nil => exact ⟨(nomatch ·), (nomatch ·)⟩
  | cons p ps ih =>
    obtain ⟨v1, v2⟩ := visit_success attempt (a p) p q (hd p List.mem_cons_self)
    obtain ⟨i1, i2⟩ := ih (fun p h => hd p (List.mem_cons_of_mem _ h))
    have hl : ∀ e ∈ (visit attempt (a p) p).1, e ∈ (visit attempt (a p) p).1 ++ (internal attempt a ps).evs := fun e h => List.mem_append_left _ h
    have hr : ∀ e ∈ (internal attempt a ps).evs, e ∈ (visit attempt (a p) p).1 ++ (internal attempt a ps).evs := fun e h => List.mem_append_right _ h
    have hboth : Ev.result q true ∈ (visit attempt (a p) p).1 ++ (internal attempt a ps).evs → Removed ((visit attempt (a p) p).1 ++ (internal attempt a ps).evs) q := by
      intro h
      rcases List.mem_append.1 h with h | h
      · exact (v1 h).mono hl
      · exact (i1 h).mono hr
    rw [internal]
    cases hn : (visit attempt (a p) p).2 with
    | stop => exact ⟨v1, fun _ => v2 hn⟩
    | settled => exact ⟨hboth, fun h => (i2 h).mono hr⟩
    | retry => exact ⟨hboth, fun h => (i2 h).mono hr⟩

theorem rounds_success (a : Nat → Pod → Ans) (q : Pod) (hd : ∀ r p, (a r p).done = false) (n : Nat) : ∀ (r : Nat) (ps : List Pod),
    (Ev.result q true ∈ (rounds a r n ps).evs → Removed (rounds a r n ps).evs q) ∧ ((rounds a r n ps).fast = true → NodeGone (rounds a r n ps).evs) := by
  induction n with
  | zero => intro r ps; exact ⟨(nomatch ·), (nomatch ·)⟩
  | succ n ih =>
    intro r ps
    obtain ⟨v1, v2⟩ := internal_success true (a r) q ps (fun p _ => hd r p)
    rw [rounds]
    split
    · exact ⟨v1, v2⟩
    · obtain ⟨i1, i2⟩ := ih (r + 1) (internal true (a r) ps).rem
      dsimp only
      refine ⟨fun h => ?_, fun h => (i2 h).mono (fun e h => List.mem_append_right _ h)⟩
      rcases List.mem_append.1 h with h | h
      · exact (v1 h).mono (fun e h => List.mem_append_left _ h)
      · exact (i1 h).mono (fun e h => List.mem_append_right _ h)

/-- C69: Pods with volumes: if the drain does not time out, success is reported for a pod only if the server has accepted its removal, or the
pod or the node is gone. -/
theorem C69_with_volumes_partial (attempt : Bool) (n : Nat) (a : Nat → Pod → Ans) (ps : List Pod) (q : Pod) (hd : ∀ r p, (a r p).done = false)
    (h : Ev.result q true ∈ withPv attempt n a ps) : Removed (withPv attempt n a ps) q ∨ NodeGone (withPv attempt n a ps) := by
  unfold withPv at h ⊢
  cases attempt with
  | false =>
    rw [if_neg (by decide)] at h ⊢
    rcases List.mem_append.1 h with h | h
    · exact .inl (((internal_success false (a 0) q ps (fun p _ => hd 0 p)).1 h).mono (fun e h => List.mem_append_left _ h))
    · simp at h
  | true =>
    rw [if_pos rfl] at h ⊢
    have hr := rounds_success a q hd n 0 ps
    split at h
    · rename_i hc
      rw [if_pos hc]
      rcases List.mem_append.1 h with h | h
      · rcases List.mem_append.1 h with h | h
        · exact .inl ((hr.1 h).mono (fun e h => List.mem_append_left _ (List.mem_append_left _ h)))
        · exact .inl (((internal_success false (a n) q _ (fun p _ => hd n p)).1 h).mono (fun e h => List.mem_append_left _ (List.mem_append_right _ h)))
      · simp at h
    · rename_i hc
      rw [if_neg hc]
      rcases List.mem_append.1 h with h | h
      · exact .inl ((hr.1 h).mono (fun e h => List.mem_append_left _ h))
      · obtain ⟨p, hp, h⟩ := List.mem_map.1 h
        injection h with _ hf
        exact .inr ((hr.2 hf).mono (fun e h => List.mem_append_left _ h))

/-- C69, false part: When the drain times out, success is reported for all pods not handled yet: the drain as a whole succeeds although no pod was
asked to leave. (The machine is then deleted without the forced drain and without the deletion of volume attachments that follow a failure.) -/
theorem C69_timeout_false : ¬ ∀ (a : Nat → Pod → Ans) (a1 : Pod → Ans1) (ps sorted : List Pod), Sorted (splitPv ps).1 sorted →
    collect ps.length (results (processes false true 360 a a1 ps sorted).flatten) = .success →
    ∀ p ∈ ps, Removed (processes false true 360 a a1 ps sorted).flatten p ∨ NodeGone (processes false true 360 a a1 ps sorted).flatten := by
  intro h
  have := h (fun _ _ => { done := true }) (fun _ => ⟨fun _ => .ok, fun _ => false, []⟩) [{ name := "a", uid := "1", node := "n", vols := [.pvc "x"] }] [{ name := "a", uid := "1", node := "n", vols := [.pvc "x"] }]
    ⟨List.Perm.refl _, List.Pairwise.cons (by simp) List.Pairwise.nil⟩ (by decide +kernel) _ List.mem_cons_self
  have he : (processes false true 360 (fun _ _ => { done := true }) (fun _ => ⟨fun _ => .ok, fun _ => false, []⟩) [{ name := "a", uid := "1", node := "n", vols := [.pvc "x"] }] [{ name := "a", uid := "1", node := "n", vols := [.pvc "x"] }]).flatten =
      [Ev.result { name := "a", uid := "1", node := "n", vols := [.pvc "x"] } true] := by decide +kernel
  rw [he] at this
  rcases this with ⟨v, r, h, _⟩ | ⟨q, h⟩
  · simp at h
  · simp at h

/-- the pod is gone: no pod with its identity is found -/
def Gone (p : Pod) (g : GetAns) : Prop := g = .notFound ∨ ∃ u, g = .found u ∧ u ≠ p.uid

/-- C69: waiting for the end of a pod succeeds only if the pod was seen to be gone, if reading it causes no error. -/
theorem C69_wait_partial (p : Pod) (gs : List GetAns) (he : GetAns.error ∉ gs) (h : waitForDelete p gs = .gone) : ∃ g ∈ gs, Gone p g := by
  induction gs with
  | nil => cases h
  | cons g gs ih =>
    rw [waitForDelete] at h
    split at h
    · rename_i hc
      refine ⟨g, List.mem_cons_self, ?_⟩
      cases g with
      | notFound => exact .inl rfl
      | error => exact absurd List.mem_cons_self he
      | found u =>
        rcases hc with hc | hc
        · cases hc
        · exact .inr ⟨u, rfl, hc⟩
    · split at h
      · cases h
      · obtain ⟨g', h1, h2⟩ := ih (fun h' => he (List.mem_cons_of_mem _ h')) h
        exact ⟨g', List.mem_cons_of_mem _ h1, h2⟩

/-- C69: and it does end as soon as the pod is gone. -/
theorem C69_wait_ends (p : Pod) (pre post : List GetAns) (g : GetAns) (hpre : ∀ x ∈ pre, x = .found p.uid) (hg : Gone p g) : waitForDelete p (pre ++ g :: post) = .gone := by
  induction pre with
  | nil =>
    rw [List.nil_append, waitForDelete, if_pos]
    rcases hg with rfl | ⟨u, rfl, h⟩
    · exact .inl rfl
    · exact .inr h
  | cons x pre ih =>
    have hx := hpre x List.mem_cons_self
    subst hx
    rw [List.cons_append, waitForDelete, if_neg, if_neg (nomatch ·)]
    · exact ih (fun x h => hpre x (List.mem_cons_of_mem _ h))
    · rintro (h | h)
      · cases h
      · exact h rfl

/-- C69, false part: The client returns an (empty) object even in case of an error, so any error while reading the pod counts as its end; the
error case of the program is never reached for pods with an identity. -/
theorem C69_error_false : (¬ ∀ (p : Pod) (gs : List GetAns), waitForDelete p gs = .gone → ∃ g ∈ gs, Gone p g) ∧
    ∀ (p : Pod) (gs : List GetAns), p.uid ≠ "" → waitForDelete p gs ≠ .error := by
  constructor
  · intro h
    obtain ⟨g, h1, h2⟩ := h { name := "a", uid := "1", node := "n" } [.error] (by decide)
    rw [List.mem_singleton] at h1
    subst h1
    rcases h2 with h2 | ⟨u, h2, _⟩ <;> cases h2
  · intro p gs hu
    induction gs with
    | nil => exact (nomatch ·)
    | cons g gs ih =>
      rw [waitForDelete]
      split
      · exact (nomatch ·)
      · rename_i hc
        rw [if_neg]
        · exact ih
        · intro h
          subst h
          exact hc (.inr hu.symm)

/-- C69: Pods without volumes: success is reported if the server has accepted the removal and the drain is forced or the pod is seen to end, and if the pod is gone already. -/
theorem C69_without_volumes_success (attempt force : Bool) (a : Ans1) (p : Pod) (n : Nat) : ∀ i,
    (∃ v, Ev.req p v .notFound ∈ noPv attempt force a p i n) ∨ ((∃ v, Ev.req p v .ok ∈ noPv attempt force a p i n) ∧ (force = true ∨ waitForDelete p a.gets = .gone)) →
    Ev.result p true ∈ noPv attempt force a p i n := by
  have haft : (force = true ∨ waitForDelete p a.gets = .gone) → Ev.result p true ∈ afterNoPv force a p := by
    intro h
    unfold afterNoPv
    split
    · exact List.mem_singleton.2 rfl
    · rename_i hf
      rw [h.resolve_left hf]
      exact List.mem_singleton.2 rfl
  have hno : ∀ v r, Ev.req p v r ∉ afterNoPv force a p := by
    intro v r h
    unfold afterNoPv at h
    split at h <;> cases List.mem_singleton.1 h
  have hdel : ∀ (i : Nat) (w : Verb), (∃ v, Ev.req p v .notFound ∈ (Ev.req p w (a.resp i) :: match a.resp i with
      | .ok => afterNoPv force a p
      | .notFound => [.result p true]
      | _ => [.result p false])) ∨ ((∃ v, Ev.req p v .ok ∈ (Ev.req p w (a.resp i) :: match a.resp i with
      | .ok => afterNoPv force a p
      | .notFound => [.result p true]
      | _ => [.result p false])) ∧ (force = true ∨ waitForDelete p a.gets = .gone)) → Ev.result p true ∈ (Ev.req p w (a.resp i) :: match a.resp i with
      | .ok => afterNoPv force a p
      | .notFound => [.result p true]
      | _ => [.result p false]) := by
    intro i w h
    cases hr : a.resp i with
    | ok =>
      rw [hr] at h
      refine List.mem_cons_of_mem _ ?_
      rcases h with ⟨v, h⟩ | ⟨_, h⟩
      · rcases List.mem_cons.1 h with h | h
        · cases h
        · exact absurd h (hno _ _)
      · exact haft h
    | notFound => exact List.mem_cons_of_mem _ (List.mem_singleton.2 rfl)
    | tooMany => rw [hr] at h; simp at h
    | error => rw [hr] at h; simp at h
  induction n with
  | zero => intro i h; rw [noPv] at h ⊢; exact hdel i .delete h
  | succ n ih =>
    intro i h
    rw [noPv] at h ⊢
    by_cases hat : attempt = true
    · rw [if_pos hat] at h ⊢
      cases hr : a.resp i with
      | ok =>
        rw [hr] at h
        refine List.mem_cons_of_mem _ ?_
        rcases h with ⟨v, h⟩ | ⟨_, h⟩
        · rcases List.mem_cons.1 h with h | h
          · cases h
          · exact absurd h (hno _ _)
        · exact haft h
      | notFound => exact List.mem_cons_of_mem _ (List.mem_singleton.2 rfl)
      | error => rw [hr] at h; simp at h
      | tooMany =>
        rw [hr] at h
        dsimp only at h ⊢
        refine List.mem_cons_of_mem _ ?_
        by_cases hp : a.pdb i = true
        · rw [if_pos hp] at h; simp at h
        · rw [if_neg hp] at h ⊢
          refine ih (i + 1) ?_
          rcases h with ⟨v, h⟩ | ⟨⟨v, h⟩, h2⟩
          · rcases List.mem_cons.1 h with h | h
            · cases h
            · exact .inl ⟨v, h⟩
          · rcases List.mem_cons.1 h with h | h
            · cases h
            · exact .inr ⟨⟨v, h⟩, h2⟩
    · rw [if_neg hat] at h ⊢
      exact hdel i .delete h

/-- C69: Pods without volumes: success is reported only if the server has accepted the removal or the pod is gone, and, if it was accepted
and the drain is not forced, after waiting for its end. -/
theorem C69_without_volumes (attempt force : Bool) (a : Ans1) (p : Pod) (n : Nat) : ∀ i, Ev.result p true ∈ noPv attempt force a p i n →
    (∃ v, Ev.req p v .notFound ∈ noPv attempt force a p i n) ∨ ((∃ v, Ev.req p v .ok ∈ noPv attempt force a p i n) ∧ (force = true ∨ waitForDelete p a.gets = .gone)) := by
  have haft : Ev.result p true ∈ afterNoPv force a p → force = true ∨ waitForDelete p a.gets = .gone := by
    intro h
    unfold afterNoPv at h
    split at h
    · rename_i hf; exact .inl hf
    · right
      simpa using h
  have hdel : ∀ (i : Nat) (v : Verb), Ev.result p true ∈ (Ev.req p v (a.resp i) :: match a.resp i with
      | .ok => afterNoPv force a p
      | .notFound => [.result p true]
      | _ => [.result p false]) → (∃ w, Ev.req p w .notFound ∈ (Ev.req p v (a.resp i) :: match a.resp i with
      | .ok => afterNoPv force a p
      | .notFound => [.result p true]
      | _ => [.result p false])) ∨ ((∃ w, Ev.req p w .ok ∈ (Ev.req p v (a.resp i) :: match a.resp i with
      | .ok => afterNoPv force a p
      | .notFound => [.result p true]
      | _ => [.result p false])) ∧ (force = true ∨ waitForDelete p a.gets = .gone)) := by
    intro i v h
    cases hr : a.resp i with
    | ok =>
      rw [hr] at h
      rcases List.mem_cons.1 h with h | h
      · cases h
      · exact .inr ⟨⟨v, List.mem_cons_self⟩, haft h⟩
    | notFound => exact .inl ⟨v, List.mem_cons_self⟩
    | tooMany => rw [hr] at h; simp at h
    | error => rw [hr] at h; simp at h
  induction n with
  | zero => intro i h; rw [noPv] at h ⊢; exact hdel i .delete h
  | succ n ih =>
    intro i h
    rw [noPv] at h ⊢
    split at h
    · rename_i hat
      rw [if_pos hat]
      cases hr : a.resp i with
      | ok =>
        rw [hr] at h
        rcases List.mem_cons.1 h with h | h
        · cases h
        · exact .inr ⟨⟨.evict, List.mem_cons_self⟩, haft h⟩
      | notFound => exact .inl ⟨.evict, List.mem_cons_self⟩
      | error => rw [hr] at h; simp at h
      | tooMany =>
        rw [hr] at h
        rcases List.mem_cons.1 h with h | h
        · cases h
        · dsimp only at h ⊢
          split at h
          · simp at h
          · rename_i hp
            rw [if_neg hp]
            rcases ih (i + 1) h with ⟨v, h⟩ | ⟨⟨v, h⟩, h2⟩
            · exact .inl ⟨v, List.mem_cons_of_mem _ h⟩
            · exact .inr ⟨⟨v, List.mem_cons_of_mem _ h⟩, h2⟩
    · rename_i hat
      rw [if_neg hat]
      exact hdel i .delete h

example : Ev.result { name := "a", uid := "1", node := "n" } true ∈ noPv true false ⟨fun i => if i = 0 then .tooMany else .ok, fun _ => false, [.found "1", .found "1", .notFound]⟩ { name := "a", uid := "1", node := "n" } 0 3 := by decide +kernel

/-! ### C70 -/

/-- after every accepted request for a pod the next thing is the wait for its volumes -/
def Waiting : List Ev → Prop
  | [] => True
  | .req p _ .ok :: evs => (∃ d rest, evs = .detach p d :: rest) ∧ Waiting evs
  | _ :: evs => Waiting evs

theorem Waiting.append {a b : List Ev} (ha : Waiting a) (hb : Waiting b) : Waiting (a ++ b) := by
  induction a with
  | nil => exact hb
  | cons e a ih =>
    cases e with
    | req p v r =>
      cases r with
      | ok =>
        obtain ⟨⟨d, rest, h⟩, h2⟩ := ha
        subst h
        exact ⟨⟨d, rest ++ b, rfl⟩, ih h2⟩
      | _ => exact ih ha
    | _ => exact ih ha

theorem waiting_map (ps : List Pod) (b : Bool) : Waiting (ps.map (Ev.result · b)) := by
  induction ps with
  | nil => trivial
  | cons p ps ih => exact ih

theorem internal_waiting (attempt : Bool) (a : Pod → Ans) (ps : List Pod) : Waiting (internal attempt a ps).evs := by
  induction ps with
  | nil => trivial
  | cons p ps ih =>
    have hv : Waiting (visit attempt (a p) p).1 := by
      have hv := visit_cases attempt (a p) p
      revert hv
      generalize (visit attempt (a p) p).1 = ev
      generalize (visit attempt (a p) p).2 = nx
      intro hv
      cases hv with
      | timeout _ => trivial
      | pdb _ => trivial
      | refused v r _ hr => rcases hr with rfl | rfl <;> trivial
      | gone _ _ => trivial
      | nodeGone _ _ => exact ⟨⟨_, _, rfl⟩, trivial⟩
      | detachError _ _ => exact ⟨⟨_, _, rfl⟩, trivial⟩
      | reattach _ _ _ _ _ => exact ⟨⟨_, _, rfl⟩, trivial⟩
    rw [internal]
    split
    · exact hv
    · exact hv.append ih
    · exact hv.append ih

theorem rounds_waiting (a : Nat → Pod → Ans) (n : Nat) : ∀ (r : Nat) (ps : List Pod), Waiting (rounds a r n ps).evs := by
  induction n with
  | zero => intro r ps; trivial
  | succ n ih =>
    intro r ps
    rw [rounds]
    split
    · exact internal_waiting true (a r) ps
    · exact (internal_waiting true (a r) ps).append (ih (r + 1) _)

/-- C70: No request is made for a pod with volumes before the wait for the volumes of the previous one has ended. -/
theorem C70_one_at_a_time (attempt : Bool) (n : Nat) (a : Nat → Pod → Ans) (ps : List Pod) : Waiting (withPv attempt n a ps) := by
  unfold withPv
  split
  · split
    · exact ((rounds_waiting a n 0 ps).append (internal_waiting false _ _)).append (waiting_map _ _)
    · exact (rounds_waiting a n 0 ps).append (waiting_map _ _)
  · exact (internal_waiting false _ _).append (waiting_map _ _)

/-- a request for the pod was made -/
def Asked (evs : List Ev) (p : Pod) : Prop := ∃ v r, Ev.req p v r ∈ evs

theorem visit_asked (attempt : Bool) (a : Ans) (p : Pod) (h : (visit attempt a p).2 ≠ .stop ∨ ∃ q, Asked (visit attempt a p).1 q) : Asked (visit attempt a p).1 p := by
  have hv := visit_cases attempt a p
  revert hv h
  generalize (visit attempt a p).1 = ev
  generalize (visit attempt a p).2 = nx
  intro h hv
  cases hv with
  | timeout _ =>
    rcases h with h | ⟨q, v, r, h⟩
    · exact absurd rfl h
    · simp at h
  | pdb _ => exact ⟨_, _, List.mem_cons_self⟩
  | refused _ _ _ _ => exact ⟨_, _, List.mem_cons_self⟩
  | gone _ _ => exact ⟨_, _, List.mem_cons_self⟩
  | nodeGone _ _ => exact ⟨_, _, List.mem_cons_self⟩
  | detachError _ _ => exact ⟨_, _, List.mem_cons_self⟩
  | reattach _ _ _ _ _ => exact ⟨_, _, List.mem_cons_self⟩

theorem visit_asked_self (attempt : Bool) (a : Ans) (p q : Pod) (h : Asked (visit attempt a p).1 q) : q = p := by
  obtain ⟨v, r, h⟩ := h
  by_cases hq : q = p
  · exact hq
  · have := mem_answers h
    rw [visit_answers_other attempt a p q v hq] at this
    cases this

/-- if not stopped, a round asks all pods -/
theorem internal_all_asked (attempt : Bool) (a : Pod → Ans) (ps : List Pod) (hf : (internal attempt a ps).fast = false) : ∀ p ∈ ps, Asked (internal attempt a ps).evs p := by
  induction ps with
  | nil => intro p h; cases h
  | cons q ps ih =>
    intro p hp
    rw [internal] at hf ⊢
    have hl : ∀ x, Asked (visit attempt (a q) q).1 x → Asked ((visit attempt (a q) q).1 ++ (internal attempt a ps).evs) x := fun x ⟨v, r, h⟩ => ⟨v, r, List.mem_append_left _ h⟩
    have hr : ∀ x, Asked (internal attempt a ps).evs x → Asked ((visit attempt (a q) q).1 ++ (internal attempt a ps).evs) x := fun x ⟨v, r, h⟩ => ⟨v, r, List.mem_append_right _ h⟩
    cases hn : (visit attempt (a q) q).2 with
    | stop => rw [hn] at hf; cases hf
    | settled =>
      rw [hn] at hf
      rcases List.mem_cons.1 hp with rfl | hp
      · exact hl _ (visit_asked attempt (a p) p (.inl (by rw [hn]; exact (nomatch ·))))
      · exact hr _ (ih hf p hp)
    | retry =>
      rw [hn] at hf
      rcases List.mem_cons.1 hp with rfl | hp
      · exact hl _ (visit_asked attempt (a p) p (.inl (by rw [hn]; exact (nomatch ·))))
      · exact hr _ (ih hf p hp)

theorem internal_asked_mem (attempt : Bool) (a : Pod → Ans) (ps : List Pod) (q : Pod) (h : Asked (internal attempt a ps).evs q) : q ∈ ps := by
  by_cases hq : q ∈ ps
  · exact hq
  · obtain ⟨v, r, h⟩ := h
    have := mem_answers h
    rw [internal_answers_other attempt a q v ps hq] at this
    cases this

/-- in a round, pods earlier in the list are asked earlier -/
theorem internal_order (attempt : Bool) (a : Pod → Ans) (ps : List Pod) (hn : ps.Nodup) : ∀ (l r : List Pod) (p q : Pod) (pre post : List Ev) (v : Verb) (x : Resp), ps = l ++ p :: r → q ∈ r →
    (internal attempt a ps).evs = pre ++ Ev.req q v x :: post → Asked pre p := by
  induction ps with
  | nil => intro l r p q pre post v x h; simp at h
  | cons p0 ps ih =>
    intro l r p q pre post v x hps hq he
    obtain ⟨hp0, hn⟩ := List.nodup_cons.1 hn
    have hqps : q ∈ ps := by
      cases l with
      | nil => injection hps with _ h; rw [h]; exact hq
      | cons y l => injection hps with _ h; rw [h]; simp [hq]
    have hne : q ≠ p0 := fun h => hp0 (h ▸ hqps)
    have hnot : ∀ v x, Ev.req q v x ∉ (visit attempt (a p0) p0).1 := fun v x h => hne (visit_asked_self attempt (a p0) p0 q ⟨v, x, h⟩)
    have key : ∀ tail, (visit attempt (a p0) p0).1 ++ tail = pre ++ Ev.req q v x :: post → ∃ pre', pre = (visit attempt (a p0) p0).1 ++ pre' ∧ tail = pre' ++ Ev.req q v x :: post := by
      intro tail h
      rcases List.append_eq_append_iff.1 h with ⟨c, h1, h2⟩ | ⟨c, h1, h2⟩
      · exact ⟨c, h1, h2⟩
      · cases c with
        | nil => exact ⟨[], by rw [List.append_nil] at h1 ⊢; exact h1.symm, by simpa using h2.symm⟩
        | cons e c =>
          rw [List.cons_append] at h2
          injection h2 with h2 _
          exact absurd (by rw [h1, ← h2]; simp) (hnot v x)
    rw [internal] at he
    have hmain : (visit attempt (a p0) p0).2 ≠ .stop → (visit attempt (a p0) p0).1 ++ (internal attempt a ps).evs = pre ++ Ev.req q v x :: post → Asked pre p := by
      intro hs he
      obtain ⟨pre', h1, h2⟩ := key _ he
      cases l with
      | nil =>
        injection hps with h _
        subst h
        obtain ⟨w, y, h⟩ := visit_asked attempt (a p0) p0 (.inl hs)
        exact ⟨w, y, by rw [h1]; exact List.mem_append_left _ h⟩
      | cons y l =>
        injection hps with _ h
        obtain ⟨w, z, h⟩ := ih hn l r p q pre' post v x h hq h2
        exact ⟨w, z, by rw [h1]; exact List.mem_append_right _ h⟩
    cases hs : (visit attempt (a p0) p0).2 with
    | stop =>
      rw [hs] at he
      dsimp only at he
      exact absurd (show Ev.req q v x ∈ (visit attempt (a p0) p0).1 by rw [he]; simp) (hnot v x)
    | settled => rw [hs] at he; exact hmain (by rw [hs]; exact (nomatch ·)) he
    | retry => rw [hs] at he; exact hmain (by rw [hs]; exact (nomatch ·)) he

/-- the trace starts with a round; what follows it, if anything with requests, follows a round in which all pods were asked -/
theorem withPv_first (attempt : Bool) (n : Nat) (a : Nat → Pod → Ans) (ps : List Pod) :
    ∃ b c tail, withPv attempt n a ps = (internal b c ps).evs ++ tail ∧ ((∃ q v x, Ev.req q v x ∈ tail) → (internal b c ps).fast = false) ∨ ∀ q, ¬ Asked (withPv attempt n a ps) q := by
  have hmap : ∀ (l : List Pod) (b : Bool) q v x, Ev.req q v x ∉ l.map (Ev.result · b) := by
    intro l b q v x h
    simp at h
  unfold withPv
  cases attempt with
  | false => exact ⟨false, a 0, _, .inl ⟨rfl, fun ⟨q, v, x, h⟩ => absurd h (hmap _ _ q v x)⟩⟩
  | true =>
    rw [if_pos rfl]
    cases n with
    | zero =>
      refine ⟨true, a 0, [], .inr ?_⟩
      rintro q ⟨v, x, h⟩
      simp [rounds] at h
    | succ n =>
      by_cases hc : ((internal true (a 0) ps).fast || (internal true (a 0) ps).rem.isEmpty || decide (n = 0)) = true
      · have hr : rounds a 0 (n + 1) ps = internal true (a 0) ps := by rw [rounds, if_pos hc]
        rw [hr]
        split
        · rename_i h
          rw [Bool.and_eq_true] at h
          exact ⟨true, a 0, _, .inl ⟨by rw [List.append_assoc], fun _ => by simpa using h.1⟩⟩
        · exact ⟨true, a 0, _, .inl ⟨rfl, fun ⟨q, v, x, h⟩ => absurd h (hmap _ _ q v x)⟩⟩
      · have hf : (internal true (a 0) ps).fast = false := by
          rw [Bool.or_eq_true, Bool.or_eq_true] at hc
          cases h : (internal true (a 0) ps).fast with
          | false => rfl
          | true => exact absurd (.inl (.inl h)) hc
        have hr : (rounds a 0 (n + 1) ps).evs = (internal true (a 0) ps).evs ++ (rounds a 1 n (internal true (a 0) ps).rem).evs := by rw [rounds, if_neg hc]
        rw [hr]
        split
        · exact ⟨true, a 0, _, .inl ⟨by rw [List.append_assoc, List.append_assoc], fun _ => hf⟩⟩
        · exact ⟨true, a 0, _, .inl ⟨by rw [List.append_assoc], fun _ => hf⟩⟩

/-- C70: A pod is asked to leave only after all pods with higher priority were. -/
theorem C70_priority (attempt : Bool) (n : Nat) (a : Nat → Pod → Ans) (ps sorted : List Pod) (hn : ps.Nodup) (hs : Sorted ps sorted) (p q : Pod) (x y : Int)
    (hp : p ∈ ps) (hq : q ∈ ps) (hx : p.priority = some x) (hy : q.priority = some y) (hlt : y < x) (pre post : List Ev) (v : Verb) (r : Resp)
    (h : withPv attempt n a sorted = pre ++ Ev.req q v r :: post) : Asked pre p := by
  have hns : sorted.Nodup := hs.1.nodup_iff.2 hn
  have hp' := hs.1.mem_iff.2 hp
  have hq' := hs.1.mem_iff.2 hq
  obtain ⟨l, rr, hl⟩ := List.append_of_mem hp'
  have hqr : q ∈ rr := by
    rw [hl] at hq'
    rcases List.mem_append.1 hq' with h | h
    · have := hs.2
      rw [hl, List.pairwise_append] at this
      have := this.2.2 q h p List.mem_cons_self y x hy hx
      omega
    · rcases List.mem_cons.1 h with rfl | h
      · rw [hx] at hy; cases hy; omega
      · exact h
  obtain ⟨b, c, tail, ⟨h1, h2⟩ | h1⟩ := withPv_first attempt n a sorted
  · rw [h1] at h
    rcases List.append_eq_append_iff.1 h with ⟨d, h3, h4⟩ | ⟨d, h3, h4⟩
    · have hf := h2 ⟨q, v, r, by rw [h4]; simp⟩
      obtain ⟨w, z, hm⟩ := internal_all_asked b c sorted hf p hp'
      exact ⟨w, z, by rw [h3]; exact List.mem_append_left _ hm⟩
    · cases d with
      | nil =>
        rw [List.append_nil] at h3
        rw [List.nil_append] at h4
        have hf := h2 ⟨q, v, r, by rw [← h4]; simp⟩
        obtain ⟨w, z, hm⟩ := internal_all_asked b c sorted hf p hp'
        exact ⟨w, z, by rw [← h3]; exact hm⟩
      | cons e d =>
        rw [List.cons_append] at h4
        injection h4 with h4 _
        subst h4
        exact internal_order b c sorted hns l rr p q pre d v r hl hqr h3
  · exact absurd ⟨v, r, by rw [h]; simp⟩ (h1 q)

/-! ### C71 -/

/-- C71: If the node could be read and the drain goes on, the node is unschedulable (or does not exist). -/
theorem C71_cordoned_partial (u : Option Bool) (updateOk : Bool) (h : (cordon u true updateOk).1 = true) : (cordon u true updateOk).2 ≠ some false := by
  cases u with
  | none => exact fun h => nomatch h
  | some u => revert h; cases u <;> cases updateOk <;> decide

/-- C71: A drain that does not go on is one whose request to cordon the node was refused; nothing else holds it up here. -/
theorem C71_held_up_only_by_refusal (u : Option Bool) (readOk updateOk : Bool) :
    (cordon u readOk updateOk).1 = false ↔ u = some false ∧ readOk = true ∧ updateOk = false := by
  cases u with
  | none => simp [cordon]
  | some u => cases u <;> cases readOk <;> cases updateOk <;> decide

/-- C71, false part: An error while reading the node is taken for a missing node: pods are evicted though new ones may still be scheduled. -/
theorem C71_read_error_false : ¬ ∀ u readOk updateOk, (cordon u readOk updateOk).1 = true → (cordon u readOk updateOk).2 ≠ some false :=
  fun h => h (some false) false true rfl rfl

end MCM.Drain
