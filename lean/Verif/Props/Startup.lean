import Verif.Model.Startup
import Verif.Props.Volumes
/-!
C109: nothing is reconciled before the caches are filled. C110: what the health endpoint says. C111: what is decided at the start.
-/
namespace MCM.Startup

/-! ## Specification -/

/-- these events can happen, in this order, in a process that has just been started -/
def Possible (p : Program) (c : Conf) (es : List Event) : Prop := (exec p c {} es).isSome

/-- every read of a cache comes after its first list -/
def FilledFirst (es : List Event) : Prop := ∀ pre q k post, es = pre ++ .read q k :: post → .fill k ∈ pre

/-! ## Executions -/

theorem exec_append (p : Program) (c : Conf) (a b : List Event) : ∀ s, exec p c s (a ++ b) = (exec p c s a).bind fun t => exec p c t b := by
  induction a with
  | nil => intro s; rfl
  | cons e es ih =>
    intro s
    show (step p c s e).bind (fun t => exec p c t (es ++ b)) = ((step p c s e).bind fun t => exec p c t es).bind fun t => exec p c t b
    cases step p c s e with
    | none => rfl
    | some t => exact ih t

/-- an invariant of states and of what has happened before -/
theorem exec_inv {p : Program} {c : Conf} (I : List Event → P → Prop) (hstep : ∀ pre s e t, I pre s → step p c s e = some t → I (pre ++ [e]) t) :
    ∀ es pre s t, I pre s → exec p c s es = some t → I (pre ++ es) t := by
  intro es
  induction es with
  | nil => intro pre s t h he; cases he; simpa using h
  | cons e es ih =>
    intro pre s t h he
    change (step p c s e).bind (fun t => exec p c t es) = some t at he
    cases hs : step p c s e with
    | none => rw [hs] at he; cases he
    | some u =>
      rw [hs] at he
      have := ih (pre ++ [e]) u t (hstep pre s e u h hs) he
      simpa using this

/-- what holds after the events `pre` -/
structure Inv (p : Program) (c : Conf) (pre : List Event) (s : P) : Prop where
  /-- caches are filled by their first list only -/
  fills : ∀ k ∈ s.filled, .fill k ∈ pre
  /-- workers run on the caches waited for -/
  ready : s.stage = .running → ∀ k ∈ p.waits, k ∈ s.filled
  /-- informers and workers are started for the leader that found the resources -/
  begun : s.stage = .waiting ∨ s.stage = .running → ∃ hz lists l, .start hz lists ∈ pre ∧ available hz lists = some l ∧ p.accepts l = true
  led : s.stage = .leading ∨ s.stage = .waiting ∨ s.stage = .running → .elected ∈ pre
  went : s.stage = .running → .go ∈ pre
  well : s.http = true → s.healthy = true
  dead : .die ∈ pre → s.stage = .dead
  runs : .go ∈ pre → s.stage = .running ∨ .die ∈ pre

theorem inv_step {p : Program} {c : Conf} (pre : List Event) (s : P) (e : Event) (t : P) (h : Inv p c pre s) (hs : step p c s e = some t) : Inv p c (pre ++ [e]) t := by
  have mem : ∀ {x : Event}, x ∈ pre → x ∈ pre ++ [e] := fun hx => List.mem_append_left _ hx
  have begun' : s.stage = .waiting ∨ s.stage = .running → ∃ hz lists l, .start hz lists ∈ pre ++ [e] ∧ available hz lists = some l ∧ p.accepts l = true := by
    intro hc
    obtain ⟨hz, ls, l, a, b⟩ := h.begun hc
    exact ⟨hz, ls, l, mem a, b⟩
  have runs' : e ≠ .go → .go ∈ pre ++ [e] → s.stage = .running ∨ .die ∈ pre ++ [e] := by
    intro hne hg
    rcases List.mem_append.1 hg with hg | hg
    · exact (h.runs hg).imp id mem
    · exact absurd (List.mem_singleton.1 hg).symm hne
  have dead' : s.stage ≠ .dead → .die ∉ pre := fun hn hd => hn (h.dead hd)
  cases e with
  | http =>
    simp only [step] at hs
    split at hs
    · cases hs
      exact ⟨fun k hk => mem (h.fills k hk), h.ready, begun', fun hc => mem (h.led hc), fun hc => mem (h.went hc), fun _ => rfl,
        (fun hd => by rcases List.mem_append.1 hd with hd | hd; exact h.dead hd; simp at hd), runs' (by simp)⟩
    · cases hs
  | probe ok =>
    simp only [step] at hs
    split at hs
    · cases hs
      exact ⟨fun k hk => mem (h.fills k hk), h.ready, begun', fun hc => mem (h.led hc), fun hc => mem (h.went hc), h.well,
        (fun hd => by rcases List.mem_append.1 hd with hd | hd; exact h.dead hd; simp at hd), runs' (by simp)⟩
    · cases hs
  | elected =>
    simp only [step] at hs
    split at hs
    · rename_i hb
      cases hs
      refine ⟨fun k hk => mem (h.fills k hk), by simp, by simp, fun _ => by simp, by simp, h.well, fun hd => ?_, fun hg => ?_⟩
      · rcases List.mem_append.1 hd with hd | hd
        · exact absurd (h.dead hd) (by rw [hb]; simp)
        · simp at hd
      · rcases runs' (by simp) hg with hr | hr
        · rw [hb] at hr; cases hr
        · exact .inr hr
    · cases hs
  | start hz lists =>
    simp only [step] at hs
    split at hs
    · rename_i hl
      have hnd : .die ∉ pre := dead' (by rw [hl]; simp)
      have hng : .go ∉ pre := fun hg => by
        rcases h.runs hg with hr | hr
        · rw [hl] at hr; cases hr
        · exact hnd hr
      have hng' : .go ∉ pre ++ [Event.start hz lists] := by simp [hng]
      cases ha : available hz lists with
      | none =>
        rw [ha] at hs; cases hs
        exact ⟨fun k hk => mem (h.fills k hk), by simp, by simp, by simp, by simp, h.well, fun _ => rfl, fun hg => absurd hg hng'⟩
      | some l =>
        rw [ha] at hs
        dsimp only at hs
        cases hp : p.accepts l with
        | false =>
          rw [hp] at hs; cases hs
          exact ⟨fun k hk => mem (h.fills k hk), by simp, by simp, by simp, by simp, h.well, fun _ => rfl, fun hg => absurd hg hng'⟩
        | true =>
          rw [hp] at hs; cases hs
          exact ⟨fun k hk => mem (h.fills k hk), by simp, fun _ => ⟨hz, lists, l, by simp, ha, hp⟩, fun _ => mem (h.led (.inl hl)), by simp, h.well,
            (fun hd => by rcases List.mem_append.1 hd with hd | hd; exact absurd hd hnd; simp at hd), fun hg => absurd hg hng'⟩
    · cases hs
  | fill k =>
    simp only [step] at hs
    split at hs
    · cases hs
      refine ⟨fun x hx => ?_, fun hr x hx => List.mem_cons_of_mem _ (h.ready hr x hx), begun', fun hc => mem (h.led hc), fun hc => mem (h.went hc), h.well,
        (fun hd => by rcases List.mem_append.1 hd with hd | hd; exact h.dead hd; simp at hd), runs' (by simp)⟩
      rcases List.mem_cons.1 hx with rfl | hx
      · simp
      · exact mem (h.fills x hx)
    · cases hs
  | go =>
    simp only [step] at hs
    split at hs
    · rename_i hc
      cases hs
      refine ⟨fun k hk => mem (h.fills k hk), fun _ k hk => ?_, fun _ => begun' (.inl hc.1), fun _ => mem (h.led (.inr (.inl hc.1))), fun _ => by simp, h.well, fun hd => ?_, fun _ => .inl rfl⟩
      · simpa using List.all_eq_true.1 hc.2 k hk
      · rcases List.mem_append.1 hd with hd | hd
        · exact absurd hd (dead' (by rw [hc.1]; simp))
        · simp at hd
    · cases hs
  | read q k =>
    simp only [step] at hs
    split at hs
    · cases hs
      exact ⟨fun k hk => mem (h.fills k hk), h.ready, begun', fun hc => mem (h.led hc), fun hc => mem (h.went hc), h.well,
        (fun hd => by rcases List.mem_append.1 hd with hd | hd; exact h.dead hd; simp at hd), runs' (by simp)⟩
    · cases hs
  | die =>
    simp only [step] at hs
    split at hs
    · cases hs
      exact ⟨fun k hk => mem (h.fills k hk), by simp, by simp, by simp, by simp, h.well, fun _ => rfl, fun _ => .inr (by simp)⟩
    · cases hs

theorem inv_init (p : Program) (c : Conf) : Inv p c [] {} := ⟨by simp, by simp, by simp, by simp, by simp, by simp, by simp, by simp⟩

/-- The state before an event of an execution, with what has happened so far. -/
theorem before {p : Program} {c : Conf} {pre post : List Event} {e : Event} (h : Possible p c (pre ++ e :: post)) : ∃ s t, Inv p c pre s ∧ step p c s e = some t := by
  unfold Possible at h
  rw [exec_append] at h
  cases h1 : exec p c {} pre with
  | none => rw [h1] at h; cases h
  | some s =>
    rw [h1] at h
    have hi := exec_inv (Inv p c) inv_step pre [] {} s (inv_init p c) h1
    change ((step p c s e).bind fun t => exec p c t post).isSome at h
    cases h2 : step p c s e with
    | none => rw [h2] at h; cases h
    | some t => exact ⟨s, t, by simpa using hi, h2⟩

/-- a read by a reconciler: the workers run, and the cache is one that was waited for -/
theorem read_before {p : Program} {c : Conf} {pre post : List Event} {q : Queue} {k : Kind} (h : Possible p c (pre ++ .read q k :: post)) :
    ∃ s, Inv p c pre s ∧ s.stage = .running ∧ 0 < c.workers ∧ q ∈ p.queues ∧ (k ∈ p.reads q ∨ (k ∈ p.later q ∧ k ∈ s.filled)) := by
  obtain ⟨s, t, hi, hs⟩ := before h
  simp only [step] at hs
  split at hs
  · rename_i hc; exact ⟨s, hi, hc⟩
  · cases hs

/-! ## C109 -/

/-- C109: In every execution of the manager of sets and deployments, each cache that a reconciler reads has got its first list before. -/
theorem C109_manager (c : Conf) (es : List Event) (h : Possible manager c es) : FilledFirst es := by
  intro pre q k post he
  subst he
  obtain ⟨s, hi, hr, _, hq, hk⟩ := read_before h
  rcases hk with hk | hk
  · exact hi.fills k (hi.ready hr k (by
      simp only [manager, List.mem_cons, List.not_mem_nil, or_false] at hq
      rcases hq with rfl | rfl | rfl <;> simp [manager] at hk ⊢ <;> rcases hk with rfl | rfl | rfl <;> simp))
  · exact hi.fills k hk.2

/-- C109: So it is in the machine controller, for clusters from version 1.21 on. -/
theorem C109_controller_partial (v : Nat × Nat) (hv' : 1 < v.1 ∨ (v.1 = 1 ∧ 21 ≤ v.2)) (c : Conf) (es : List Event) (h : Possible (controller v) c es) : FilledFirst es := by
  have hv : from121 v = true := by unfold from121; simpa using hv'
  intro pre q k post he
  subst he
  obtain ⟨s, hi, hr, _, hq, hk⟩ := read_before h
  rcases hk with hk | hk
  · refine hi.fills k (hi.ready hr k ?_)
    have hw : (controller v).waits = [.secret, .pvc, .pv, .pdb, .attachment, .node, .cls, .machine] := by simp [controller, hv]
    rw [hw]
    cases q <;> simp [controller] at hk hq ⊢ <;> grind
  · exact hi.fills k hk.2

/-- C109: For all versions it is so with the exception of the disruption budgets. In particular the collection of orphan VMs, which starts by itself, never takes a cache of machines that
is not filled yet for an empty one. -/
theorem C109_controller_budgets_partial (v : Nat × Nat) (c : Conf) (es : List Event) (h : Possible (controller v) c es) :
    ∀ pre q k post, es = pre ++ .read q k :: post → k ≠ .pdb → .fill k ∈ pre := by
  intro pre q k post he hne
  subst he
  obtain ⟨s, hi, hr, _, hq, hk⟩ := read_before h
  rcases hk with hk | hk
  · refine hi.fills k (hi.ready hr k ?_)
    show k ∈ if from121 v then _ else _
    cases from121 v <;> cases q <;> simp [controller] at hk hq ⊢ <;> grind
  · exact hi.fills k hk.2

/-- the lists of a cluster -/
def crds : List (String × List String) := [("v1", ["nodes"]), ("machine.sapcloud.io/v1alpha1", ["machines", "machinesets", "machinedeployments"])]

/-- C109, false part: On older clusters terminations read the disruption budgets without having any (the cache cannot be filled there, the version of the API does not exist). -/
theorem C109_budgets_false : ¬ ∀ v c es, Possible (controller v) c es → FilledFirst es := by
  intro h
  have := h (1, 20) { workers := 50 } [.http, .elected, .start [false, true] crds, .fill .secret, .fill .pvc, .fill .pv, .fill .attachment, .fill .node, .fill .cls, .fill .machine, .go, .read .terminations .pdb]
    (by unfold Possible; decide +kernel)
    [.http, .elected, .start [false, true] crds, .fill .secret, .fill .pvc, .fill .pv, .fill .attachment, .fill .node, .fill .cls, .fill .machine, .go] .terminations .pdb [] rfl
  revert this; decide +kernel

example : Possible manager { workers := 10 } [.http, .probe true, .elected, .start [true] crds, .fill .set, .fill .machine, .fill .node, .fill .deployment, .go, .read .deployments .set, .die] := by
  unfold Possible; decide +kernel
example : Possible (controller (1, 30)) { workers := 50 } [.elected, .start [true] crds, .fill .secret, .fill .pvc, .fill .pv, .fill .pdb, .fill .attachment, .fill .node, .fill .cls, .fill .machine, .go,
    .read .orphans .machine, .fill .pod, .read .terminations .pod] := by
  unfold Possible; decide +kernel

/-! ## C110 -/

/-- C110: Nothing is reconciled before the lease is obtained, the resources are found and the workers are started; nothing after the end of the process or the loss of the lease. -/
theorem C110_order (p : Program) (c : Conf) (es : List Event) (h : Possible p c es) :
    ∀ pre q k post, es = pre ++ .read q k :: post → .elected ∈ pre ∧ .go ∈ pre ∧ .die ∉ pre ∧ ∃ hz lists l, .start hz lists ∈ pre ∧ available hz lists = some l ∧ p.accepts l = true := by
  intro pre q k post he
  subst he
  obtain ⟨s, hi, hr, _⟩ := read_before h
  exact ⟨hi.led (.inr (.inr hr)), hi.went hr, (fun hd => by have := hi.dead hd; rw [hr] at this; cases this), hi.begun (.inr hr)⟩

/-- C110: The endpoint never says that the process is not healthy: whoever asks gets `OK`, from the start of the server on. -/
theorem C110_always_ok_partial (p : Program) (c : Conf) (es : List Event) (h : Possible p c es) : .probe false ∉ es := by
  intro hm
  obtain ⟨pre, post, rfl⟩ := List.append_of_mem hm
  obtain ⟨s, t, hi, hs⟩ := before h
  simp only [step] at hs
  split at hs
  · rename_i hc
    have := hi.well hc.2.1
    rw [this] at hc
    exact absurd hc.2.2 (by simp)
  · cases hs

/-- C110: If one of the resources that are waited for is never listed, nothing is ever reconciled, whatever happens. -/
theorem C110_missing_kind (p : Program) (c : Conf) (es : List Event) (h : Possible p c es) (k : Kind) (hk : k ∈ p.waits) (hf : .fill k ∉ es) : ∀ q x, .read q x ∉ es := by
  intro q x hm
  obtain ⟨pre, post, rfl⟩ := List.append_of_mem hm
  obtain ⟨s, hi, hr, _⟩ := read_before h
  exact hf (List.mem_append_left _ (hi.fills k (hi.ready hr k hk)))

/-- C110: With `--concurrent-syncs` zero or below nothing is ever reconciled. -/
theorem C110_no_workers (p : Program) (c : Conf) (hc : c.workers ≤ 0) (es : List Event) (h : Possible p c es) : ∀ q x, .read q x ∉ es := by
  intro q x hm
  obtain ⟨pre, post, rfl⟩ := List.append_of_mem hm
  obtain ⟨_, _, _, hw, _⟩ := read_before h
  omega

/-- if the process has its caches, answers `OK` and goes on living, something can be reconciled -/
def OkMeans (p : Program) (c : Conf) : Prop := ∀ es, Possible p c es → .go ∈ es → .die ∉ es → .probe true ∈ es → ∃ more q k, Possible p c (es ++ more) ∧ .read q k ∈ more

/-- C110: It is so with a positive number of workers. -/
theorem C110_ok_means_partial (c : Conf) (hc : 0 < c.workers) (v : Nat × Nat) : OkMeans manager c ∧ OkMeans (controller v) c := by
  have key : ∀ (p : Program) (q : Queue) (k : Kind), q ∈ p.queues → k ∈ p.reads q → OkMeans p c := by
    intro p q k hq hk es h hg hd _
    refine ⟨[.read q k], q, k, ?_, by simp⟩
    unfold Possible at h ⊢
    rw [exec_append]
    cases h1 : exec p c {} es with
    | none => rw [h1] at h; cases h
    | some s =>
      have hi := exec_inv (Inv p c) inv_step es [] {} s (inv_init p c) h1
      have hr : s.stage = .running := (hi.runs (by simpa using hg)).resolve_right (by simpa using hd)
      show ((step p c s (.read q k)).bind fun t => exec p c t []).isSome
      have : step p c s (.read q k) = some s := by
        simp only [step]
        rw [if_pos ⟨hr, hc, hq, .inl hk⟩]
      rw [this]; rfl
  exact ⟨key manager .sets .machine (by simp [manager]) (by simp [manager]), key (controller v) .machines .machine (by simp [controller]) (by simp [controller])⟩

/-- C110, false part: The endpoint says `OK` although no worker will ever run: a number of workers that is not positive is accepted. -/
theorem C110_ok_without_workers_false : ¬ ∀ p c, OkMeans p c := by
  intro h
  obtain ⟨more, q, k, hp, hm⟩ := h manager { workers := 0 } [.http, .elected, .start [true] crds, .fill .node, .fill .machine, .fill .set, .fill .deployment, .go, .probe true]
    (by unfold Possible; decide +kernel) (by decide +kernel) (by decide +kernel) (by decide +kernel)
  exact C110_no_workers manager _ (by decide) _ hp q k (List.mem_append_right _ hm)

/-- what discovery gives in a cluster without the resource of machine sets -/
def noSets : List (String × List String) := [("v1", ["nodes"]), ("machine.sapcloud.io/v1alpha1", ["machines", "machinedeployments"])]

/-- C110, false part: The manager goes on if a single one of its three resources is there. It then waits for the others, says `OK`, and reconciles nothing. -/
theorem C110_missing_resource_false :
    ∃ es, Possible manager { workers := 10 } es ∧ .probe true ∈ es ∧ .start [true] noSets ∈ es ∧ .die ∉ es ∧
      ∀ more, Possible manager { workers := 10 } (es ++ more) → .fill .set ∉ more → ∀ q k, .read q k ∉ es ++ more := by
  refine ⟨[.http, .elected, .start [true] noSets, .fill .node, .fill .machine, .fill .deployment, .probe true], by unfold Possible; decide +kernel, by decide +kernel, by decide +kernel, by decide +kernel, ?_⟩
  intro more hp hn q k
  refine C110_missing_kind manager _ _ hp .set (by simp [manager]) ?_ q k
  intro hm
  rcases List.mem_append.1 hm with hm | hm
  · revert hm; decide +kernel
  · exact hn hm

/-- C110: Without any of its resources (the machine controller: without machines), or without a healthy API server, the process ends instead of waiting. -/
theorem C110_nothing_there (c : Conf) (s : P) (hs : s.stage = .leading) (hz : List Bool) (lists : List (String × List String)) (l : List (String × String × String)) (v : Nat × Nat) :
    (hz.all (· == false) → step manager c s (.start hz lists) = some { s with stage := .dead } ∧ step (controller v) c s (.start hz lists) = some { s with stage := .dead }) ∧
    (available hz lists = some l → gvr "machines" ∉ l → step (controller v) c s (.start hz lists) = some { s with stage := .dead } ∧
      (gvr "machinesets" ∉ l → gvr "machinedeployments" ∉ l → step manager c s (.start hz lists) = some { s with stage := .dead })) := by
  refine ⟨fun h => ?_, fun ha hm => ⟨?_, fun h1 h2 => ?_⟩⟩
  · have : available hz lists = none := by
      unfold available
      rw [if_pos]
      intro ha
      obtain ⟨x, hx, hx'⟩ := List.any_eq_true.1 ha
      have := List.all_eq_true.1 h x hx
      cases x <;> simp_all
    simp [step, hs, this]
  · simp [step, hs, ha, controller, hm]
  · simp [step, hs, ha, manager, hm, h1, h2]

/-! ## C111 -/

/-- C111: The machine controller follows the volume attachments exactly if, at its start, both requests are answered and the resource is in the preferred version of the (first) group. -/
theorem C111_handler (groups : Option (List (String × String))) (resources : String → Option (List String)) :
    handler groups resources = true ↔ ∃ gs before v after rs, groups = some gs ∧ gs = before ++ ("storage.k8s.io", v) :: after ∧ (∀ g ∈ before, g.1 ≠ "storage.k8s.io") ∧
      resources v = some rs ∧ "volumeattachments" ∈ rs := by
  unfold handler
  constructor
  · intro h
    split at h
    · cases h
    · rename_i gs
      split at h
      · cases h
      · rename_i g hg
        obtain ⟨hg1, b, a, he, hb⟩ := List.find?_eq_some_iff_append.1 hg
        cases hr : resources g.2 with
        | none => rw [hr] at h; cases h
        | some rs =>
          rw [hr] at h
          refine ⟨gs, b, g.2, a, rs, rfl, ?_, fun x hx => ?_, hr, by simpa using h⟩
          · rw [he]; congr; exact Prod.ext (by simpa using hg1) rfl
          · simpa using hb x hx
  · rintro ⟨gs, b, v, a, rs, rfl, rfl, hb, hr, hm⟩
    have : (b ++ ("storage.k8s.io", v) :: a).find? (·.1 == "storage.k8s.io") = some ("storage.k8s.io", v) :=
      List.find?_eq_some_iff_append.2 ⟨by simp, b, a, rfl, fun x hx => by simpa using hb x hx⟩
    simp only [this, hr]
    simpa using hm

/-- C111, false part: One failing request at the start lets every wait for the re-attachment of volumes last its full time, for as long as the process lives, though the volumes are attached
elsewhere at once. -/
theorem C111_one_failure_false (resources : String → Option (List String)) (pv node other : String) (hn : node ≠ "") (ho : other ≠ node) :
    handler none resources = false ∧ (∀ es, Drain.waitForReattach (handler none resources) [pv] node es ≠ some .ok) ∧
      handler (some [("storage.k8s.io", "storage.k8s.io/v1")]) (fun _ => some ["volumeattachments"]) = true ∧
      Drain.waitForReattach (handler (some [("storage.k8s.io", "storage.k8s.io/v1")]) (fun _ => some ["volumeattachments"])) [pv] node [.event (some pv) true other] = some .ok := by
  have h1 : handler (some [("storage.k8s.io", "storage.k8s.io/v1")]) (fun _ => some ["volumeattachments"]) = true := by decide +kernel
  refine ⟨rfl, fun es => Drain.C72_no_handler_false [pv] node es (by simp) hn, h1, ?_⟩
  rw [h1]
  simp [Drain.waitForReattach, Drain.reattachLoop, Drain.left, hn, ho]

example : handler (some [("apps", "apps/v1"), ("storage.k8s.io", "storage.k8s.io/v1")]) (fun v => if v = "storage.k8s.io/v1" then some ["volumeattachments", "csinodes"] else none) = true := by decide +kernel

end MCM.Startup
