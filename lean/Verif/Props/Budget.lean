import Verif.Model.Budget
import Verif.Props.Drain
/-!
C126: disruption budgets during a drain.

Specification. The status of a budget is computed by the cluster (the disruption controller of Kubernetes, not part of this repository): it
permits as many disruptions as there are healthy pods beyond the number demanded, and none if it expects no pods (`permits`). A budget
forbids every disruption if it permits none whatever number of the pods it expects is healthy (`ForbidsAll`).
-/
namespace MCM.Budget
open MCM MCM.Drain

/-- the disruptions permitted, as the cluster computes them -/
def permits (expected desired healthy : Int) : Int := if 0 < expected ∧ desired < healthy then healthy - desired else 0

/-- the status was computed like that -/
def Computed (b : Pdb) : Prop := b.allowed = permits b.expected b.desired b.healthy

/-- the status is about the present specification of the budget -/
def Current (b : Pdb) : Prop := b.generation = b.observed

/-- no disruption is permitted, whatever number of the expected pods is healthy -/
def ForbidsAll (b : Pdb) : Prop := ∀ h : Int, h ≤ b.expected → permits b.expected b.desired h = 0

/-- the budget is meant for the pods of the namespace with these labels -/
def Covers (b : Pdb) (ns : String) (labels : SMap) : Prop := b.ns = ns ∧ b.sel labels = true

theorem forbids_iff (b : Pdb) (h : 0 < b.expected) : ForbidsAll b ↔ b.expected ≤ b.desired := by
  unfold ForbidsAll permits
  constructor
  · intro hf
    have := hf b.expected (Int.le_refl _)
    split at this <;> omega
  · intro hd x hx
    split <;> omega

theorem misconfigured_iff (b : Pdb) (hc : Computed b) :
    misconfigured b = true ↔ Current b ∧ 0 < b.expected ∧ b.expected ≤ b.healthy ∧ b.healthy ≤ b.desired := by
  unfold misconfigured Current
  unfold Computed permits at hc
  split
  · rename_i hne
    exact ⟨fun h => (nomatch h), fun h => absurd h.1 hne⟩
  · rename_i heq
    have heq : b.generation = b.observed := Decidable.not_not.1 heq
    simp only [Bool.and_eq_true, decide_eq_true_eq, heq, true_and]
    split at hc <;> omega

theorem mem_budgetsOf {cache : List Pdb} {ns : String} {labels : SMap} {b : Pdb} : b ∈ budgetsOf cache ns labels ↔ b ∈ cache ∧ Covers b ns labels := by
  unfold budgetsOf Covers
  rw [List.mem_filter, Bool.and_eq_true, beq_iff_eq]

theorem gaveUp_some {cache : List Pdb} {ns : String} {labels : SMap} (h : gaveUp cache ns labels = true) :
    ∃ b ∈ cache, Covers b ns labels ∧ misconfigured b = true := by
  unfold gaveUp getPdb at h
  cases hb : budgetsOf cache ns labels with
  | nil => rw [hb] at h; cases h
  | cons b bs =>
    rw [hb] at h
    have hm : b ∈ budgetsOf cache ns labels := by rw [hb]; exact .head _
    exact ⟨b, (mem_budgetsOf.1 hm).1, (mem_budgetsOf.1 hm).2, h⟩

/-- C126: The eviction of a pod is given up because of a budget only if the pod has a budget that, by its present specification, forbids every
disruption, even with all pods healthy. -/
theorem C126_given_up_only_if (cache : List Pdb) (ns : String) (labels : SMap) (hc : ∀ b ∈ cache, Computed b) (h : gaveUp cache ns labels = true) :
    ∃ b ∈ cache, Covers b ns labels ∧ Current b ∧ 0 < b.expected ∧ ForbidsAll b := by
  obtain ⟨b, hb, hcov, hm⟩ := gaveUp_some h
  obtain ⟨h1, h2, h3, h4⟩ := (misconfigured_iff b (hc b hb)).1 hm
  exact ⟨b, hb, hcov, h1, h2, (forbids_iff b h2).2 (Int.le_trans h3 h4)⟩

/-- C126: A budget that forbids every disruption is recognised. **Partial**: if it is the only one of the pod and all its pods are healthy; see
`C126_unhealthy_false` and `C126_two_budgets_false`. -/
theorem C126_recognised_partial (cache : List Pdb) (ns : String) (labels : SMap) (b : Pdb) (hb : budgetsOf cache ns labels = [b]) (hc : Computed b)
    (hcur : Current b) (hpos : 0 < b.expected) (hall : b.healthy = b.expected) (hf : ForbidsAll b) : gaveUp cache ns labels = true := by
  unfold gaveUp getPdb
  rw [hb]
  exact (misconfigured_iff b hc).2 ⟨hcur, hpos, Int.le_of_eq hall.symm, by rw [hall]; exact (forbids_iff b hpos).1 hf⟩

/-! ### what becomes of the pod -/

theorem internal_rem_retry (attempt : Bool) (a : Pod → Ans) (ps : List Pod) (q : Pod) (hf : (internal attempt a ps).fast = false)
    (hq : q ∈ (internal attempt a ps).rem) : (visit attempt (a q) q).2 = .retry := by
  induction ps with
  | nil => cases hq
  | cons p ps ih =>
    cases hv : (visit attempt (a p) p).2 <;> rw [internal, hv] at hf hq
    · rcases List.mem_cons.1 hq with rfl | hq
      · exact hv
      · exact ih hf hq
    · exact ih hf hq
    · cases hf

theorem rounds_rem_retry (a : Nat → Pod → Ans) (q : Pod) (n : Nat) : ∀ (r : Nat) (ps : List Pod), (rounds a r n ps).fast = false → q ∈ (rounds a r n ps).rem →
    ∃ r', (visit true (a r' q) q).2 = .retry := by
  induction n with
  | zero => intro r ps _ hq; cases hq
  | succ n ih =>
    intro r ps hf hq
    rw [rounds] at hf hq
    split at hf
    · rename_i hc
      rw [if_pos hc] at hq
      exact ⟨r, internal_rem_retry true (a r) ps q hf hq⟩
    · rename_i hc
      rw [if_neg hc] at hq
      exact ih (r + 1) _ hf hq

theorem visit_retry (a : Ans) (q : Pod) (h : (visit true a q).2 = .retry) : (a.resp = .tooMany ∧ a.pdb = false) ∨ a.resp = .error := by
  unfold visit at h
  split at h
  · cases h
  · cases hr : a.resp <;> rw [hr] at h
    · rw [if_neg (by decide)] at h
      unfold waits at h
      dsimp only at h
      cases hd : a.detach <;> rw [hd] at h
      · cases hre : a.reattach <;> rw [hre] at h <;> cases h
      · cases h
      · cases h
    · cases hp : a.pdb
      · exact .inl ⟨rfl, rfl⟩
      · rw [if_pos (by decide), if_pos hp] at h; cases h
    · cases h
    · exact .inr rfl

theorem answers_nil_of_not_mem {v : Verb} {p : Pod} {evs : List Ev} (h : answers v p evs = []) (r : Resp) : Ev.req p v r ∉ evs := by
  intro hm
  have := mem_answers hm
  rw [h] at this
  cases this

/-- a pod whose eviction is refused only because of a budget that is recognised -/
def Kept (cache : List Pdb) (labels : SMap) (p : Pod) (r : Resp) : Prop := r ≠ .error ∧ (r = .tooMany → gaveUp cache p.ns labels = true)

/-- C126: A pod with volumes is not deleted, and its eviction is not tried again, if each refusal is because of a budget that is recognised.
**Partial**: other errors, and budgets that are not recognised, lead to its deletion (`C126_overridden_false`). -/
theorem C126_kept_with_volumes_partial (n : Nat) (a : Nat → Pod → Ans) (caches : Nat → Pod → List Pdb) (lab : Pod → SMap) (ps : List Pod) (p : Pod)
    (hk : ∀ r, Kept (caches r p) (lab p) p (a r p).resp) (r : Resp) :
    Ev.req p .delete r ∉ withPv true n (fun i q => ansOf (caches i q) (lab q) q (a i q)) ps := by
  have hno : ∀ i, (visit true (ansOf (caches i p) (lab p) p (a i p)) p).2 ≠ .retry := by
    intro i h
    rcases visit_retry _ p h with ⟨h1, h2⟩ | h1
    · exact absurd ((hk i).2 h1) (by rw [show gaveUp (caches i p) p.ns (lab p) = false from h2]; exact Bool.noConfusion)
    · exact (hk i).1 h1
  unfold withPv
  rw [if_pos rfl]
  split
  · rename_i hc
    rw [Bool.and_eq_true] at hc
    have hf := hc.1
    rw [Bool.not_eq_true'] at hf
    intro hm
    rw [List.append_assoc, List.mem_append, List.mem_append] at hm
    rcases hm with hm | hm | hm
    · exact answers_nil_of_not_mem (rounds_no_delete _ p n 0 ps) r hm
    · have hp : p ∈ (rounds (fun i q => ansOf (caches i q) (lab q) q (a i q)) 0 n ps).rem := by
        refine Decidable.byContradiction fun hnp => ?_
        exact answers_nil_of_not_mem (internal_answers_other false _ p .delete _ hnp) r hm
      obtain ⟨i, hi⟩ := rounds_rem_retry _ p n 0 ps hf hp
      exact hno i hi
    · obtain ⟨x, _, hx⟩ := List.mem_map.1 hm
      cases hx
  · intro hm
    rcases List.mem_append.1 hm with hm | hm
    · exact answers_nil_of_not_mem (rounds_no_delete _ p n 0 ps) r hm
    · obtain ⟨x, _, hx⟩ := List.mem_map.1 hm
      cases hx

/-- C126: The same for a pod without volumes: at the first refusal its eviction is given up and reported as a failure. -/
theorem C126_kept_without_volumes_partial (n : Nat) (a : Ans1) (caches : Nat → List Pdb) (labels : SMap) (p : Pod) (i : Nat)
    (hk : gaveUp (caches i) p.ns labels = true) (hr : a.resp i = .tooMany) :
    noPv true false (ans1Of caches labels p a) p i (n + 1) = [.req p .evict .tooMany, .result p false] := by
  rw [noPv, if_pos rfl]
  show Ev.req p .evict (a.resp i) :: (match a.resp i with
    | .ok => _
    | .notFound => _
    | .error => _
    | .tooMany => if gaveUp (caches i) p.ns labels then _ else _) = _
  rw [hr]
  dsimp only
  rw [if_pos hk]

/-- C126, false part: A budget is not recognised while one of its pods is not healthy: whatever it demands, and whatever the number of
evictions, the pod is deleted in the end, though the drain is not forced. -/
theorem C126_overridden_false (n : Nat) (a : Ans1) (caches : Nat → List Pdb) (labels : SMap) (p : Pod)
    (hu : ∀ i, ∀ b ∈ caches i, Covers b p.ns labels → b.healthy < b.expected) (hr : ∀ i, i < n → a.resp i = .tooMany) :
    ∀ i, i ≤ n → Ev.req p .delete (a.resp n) ∈ noPv true false (ans1Of caches labels p a) p i (n - i) := by
  have hg : ∀ i, gaveUp (caches i) p.ns labels = false := by
    intro i
    cases h : gaveUp (caches i) p.ns labels with
    | false => rfl
    | true =>
      obtain ⟨b, hb, hcov, hm⟩ := gaveUp_some h
      have := hu i b hb hcov
      unfold misconfigured at hm
      split at hm
      · cases hm
      · simp only [Bool.and_eq_true, decide_eq_true_eq] at hm
        omega
  intro i hi
  induction hk : n - i generalizing i with
  | zero =>
    obtain rfl : i = n := by omega
    rw [noPv]
    exact .head _
  | succ k ih =>
    rw [noPv, if_pos rfl]
    refine .tail _ ?_
    have hri : (ans1Of caches labels p a).resp i = .tooMany := hr i (by omega)
    have hgi : ¬ ((ans1Of caches labels p a).pdb i = true) := by
      show ¬ (gaveUp (caches i) p.ns labels = true)
      rw [hg]; exact Bool.noConfusion
    rw [hri]
    dsimp only
    rw [if_neg hgi]
    exact ih (i + 1) (by omega) (by omega)

/-- the budget of the witnesses: two pods are expected, both have to be healthy -/
def strict (healthy : Int) : Pdb :=
  { ns := "default", name := "strict", sel := fun _ => true, generation := 1, observed := 1, expected := 2, healthy, desired := 2, allowed := 0 }

/-- a budget that demands one pod -/
def mild : Pdb :=
  { ns := "default", name := "mild", sel := fun _ => true, generation := 1, observed := 1, expected := 2, healthy := 2, desired := 1, allowed := 1 }

theorem strict_computed (h : Int) (hh : h ≤ 2) : Computed (strict h) := by
  show (0 : Int) = if (0 : Int) < 2 ∧ 2 < h then h - 2 else 0
  rw [if_neg (by omega)]

theorem strict_forbids (h : Int) : ForbidsAll (strict h) := (forbids_iff (strict h) (show (0 : Int) < 2 by decide)).2 (Int.le_refl _)

/-- C126, false part: so not every budget that forbids all disruptions is respected. -/
theorem C126_unhealthy_false : ¬ ∀ (cache : List Pdb) (ns : String) (labels : SMap) (b : Pdb), budgetsOf cache ns labels = [b] → Computed b → Current b →
    0 < b.expected → ForbidsAll b → gaveUp cache ns labels = true := by
  intro h
  have := h [strict 1] "default" [] (strict 1) rfl (strict_computed 1 (by decide)) rfl (by decide) (strict_forbids 1)
  revert this
  decide

/-- C126, false part: With two budgets the order of the cache, which is arbitrary, decides. -/
theorem C126_two_budgets_false : ∃ b c : Pdb, Computed b ∧ Computed c ∧ gaveUp [b, c] "default" [] = true ∧ gaveUp [c, b] "default" [] = false :=
  ⟨strict 2, mild, strict_computed 2 (by decide), by unfold Computed permits mild; decide, by decide, by decide⟩

/-- the pod of the examples -/
def pod : Pod := { name := "p", uid := "u", node := "n", vols := [.pvc "c"] }

-- the hypotheses are met: a budget that is recognised, of a pod whose eviction is refused
example : gaveUp [strict 2] pod.ns [] = true := by decide
example : ∃ b ∈ [strict 2], Covers b "default" [] ∧ Current b ∧ 0 < b.expected ∧ ForbidsAll b :=
  C126_given_up_only_if [strict 2] "default" [] (fun b hb => by rw [List.mem_singleton.1 hb]; exact strict_computed 2 (by decide)) (by decide)
example : gaveUp [strict 2] "default" [] = true :=
  C126_recognised_partial _ _ _ (strict 2) rfl (strict_computed 2 (by decide)) rfl (by decide) rfl (strict_forbids 2)
example : ∀ _ : Nat, Kept [strict 2] [] pod .tooMany := fun _ => ⟨by decide, fun _ => by decide⟩
example : withPv true 3 (fun _ q => ansOf [strict 2] [] q { resp := .tooMany }) [pod] = [.req pod .evict .tooMany, .result pod false] := by decide
-- and the pod is deleted if one of the two is not healthy
example : withPv true 3 (fun i q => ansOf [strict 1] [] q { resp := if i < 3 then .tooMany else .ok }) [pod] =
    [.req pod .evict .tooMany, .req pod .evict .tooMany, .req pod .evict .tooMany, .req pod .delete .ok, .detach pod .ok, .reattach pod .ok, .result pod true] := by
  decide
example : ∀ i : Nat, ∀ b ∈ (fun _ => [strict 1]) i, Covers b pod.ns [] → b.healthy < b.expected := fun _ b hb _ => by
  rw [List.mem_singleton.1 hb]; decide

end MCM.Budget
