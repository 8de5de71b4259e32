import Verif.Model.Attach
import Verif.Props.TerminationLive
/-!
Property C96: after a forced drain the volume attachments of the node, and no others, are deleted before the VM is.
-/
namespace MCM.Attach
open MCM MCM.Termination

/-! ### Specification -/

/-- the machine is about to have its volume attachments deleted, as after a forced drain -/
def Due (v : Obj) : Prop := v.finalizer = true ∧ v.st.phase = .terminating ∧ decode v.st.desc = some .vols

/-- the VM of the machine is to be deleted next -/
def VMNext (v : Obj) : Prop := v.finalizer = true ∧ v.st.phase = .terminating ∧ decode v.st.desc = some .vm

/-- an attachment of the node whose deletion nobody has asked for -/
def Attached (node : String) (l : List Att) (a : Att) : Prop := a ∈ l ∧ a.node = node ∧ a.deleting = false

/-! ### Lemmas -/

theorem mem_live {node : String} {l : List Att} {a : Att} : a ∈ live node l ↔ Attached node l a := by
  unfold live Attached
  rw [List.mem_filter, Bool.and_eq_true, decide_eq_true_iff, Bool.not_eq_true']

theorem run_due (e : Termination.Env) (v : Obj) (h : Due v) : Termination.run e v =
    if e.classOk then match (volStep e v).write with
      | none => v
      | some wr => (applyWrite e v wr).getD v
    else v := by
  obtain ⟨h1, h2, h3⟩ := h
  have hl : labelOf e v = none := by
    unfold labelOf
    rw [h3, if_neg]
    simp
  have hf : flow e v = volStep e v := by
    unfold flow
    rw [if_neg (by rw [h1]; decide), if_neg (fun h => h h2), h3]
  unfold Termination.run
  rw [hl]
  dsimp only
  unfold Termination.run.afterFlow
  rw [hf]
  cases e.classOk <;> rfl

/-! ### Theorems -/

/-- C96: Only attachments of the machine's own node, which nobody has deleted yet, are deleted. -/
theorem C96_only_own (e : Env) (node name : String) (h : name ∈ requests e node) : ∃ l a, e.listed = some l ∧ Attached node l a ∧ a.name = name := by
  unfold requests at h
  split at h
  · cases hl : e.listed with
    | none => rw [hl] at h; cases h
    | some l =>
      rw [hl] at h
      obtain ⟨a, ha, hn⟩ := List.mem_map.1 h
      exact ⟨l, a, rfl, mem_live.1 ha, hn⟩
  · cases h

/-- C96: If the node reports attached volumes, all its attachments are deleted, also if some of the requests fail. -/
theorem C96_all (e : Env) (node : String) (l : List Att) (hn : e.t.nodeGet = .found true) (hl : e.listed = some l) (a : Att) (ha : Attached node l a) :
    a.name ∈ requests e node := by
  unfold requests
  rw [hn, hl]
  exact List.mem_map.2 ⟨a, mem_live.2 ha, rfl⟩

/-- C96: A machine leaves this stage only if its node is gone, if the node reports no attached volumes, or if no attachment of the node is left whose
deletion was not asked for. -/
theorem C96_waits (e : Env) (s : Obj × List Att) (hd : Due s.1) (h : (run e s).1 ≠ s.1) :
    (∃ t, e.t.nodeGet = .notFound t) ∨ e.t.nodeGet = .found false ∨ ∃ l, e.listed = some l ∧ ∀ a, ¬ Attached s.1.node l a := by
  have hr : (run e s).1 = Termination.run (e.term s.1.node) s.1 := rfl
  rw [hr, run_due _ _ hd] at h
  cases hn : e.t.nodeGet with
  | notFound t => exact .inl ⟨t, rfl⟩
  | fail =>
    exfalso
    apply h
    have : (e.term s.1.node).nodeGet = .fail := hn
    unfold volStep
    rw [this]
    dsimp only
    split <;> rfl
  | found b =>
    cases b with
    | false => exact .inr (.inl rfl)
    | true =>
      have hg : (e.term s.1.node).nodeGet = .found true := hn
      cases hl : e.listed with
      | none =>
        exfalso
        apply h
        have : (e.term s.1.node).liveVols = none := by unfold Env.term; rw [hl]; rfl
        unfold volStep
        rw [hg]
        dsimp only
        rw [this]
        dsimp only
        split <;> rfl
      | some l =>
        refine .inr (.inr ⟨l, rfl, ?_⟩)
        intro a ha
        apply h
        have : (e.term s.1.node).liveVols = some true := by
          unfold Env.term
          rw [hl]
          have : live s.1.node l ≠ [] := fun h0 => by
            have := mem_live.2 ha
            rw [h0] at this
            cases this
          cases hx : live s.1.node l with
          | nil => exact absurd hx this
          | cons x r => simp [hx]
        unfold volStep
        rw [hg]
        dsimp only
        rw [this]
        dsimp only
        split <;> rfl

theorem deleted_spec (accept : String → Bool) (reqs : List String) (store : List Att) (node : String) (a : Att) (h : Attached node (deleted accept reqs store) a) :
    Attached node store a ∧ (a.name ∈ reqs → accept a.name = false) := by
  obtain ⟨h1, h2, h3⟩ := h
  obtain ⟨b, hb, h4⟩ := List.mem_map.1 h1
  by_cases hc : (reqs.contains b.name && accept b.name) = true
  · rw [if_pos hc] at h4
    subst h4
    cases h3
  · rw [if_neg hc] at h4
    subst h4
    refine ⟨⟨hb, h2, h3⟩, fun hm => ?_⟩
    cases ha : accept b.name with
    | false => rfl
    | true => exact absurd (by rw [ha, Bool.and_true]; simpa using hm) hc

/-- C96: If the list is up to date and the requests are accepted, one run marks all attachments of the node for deletion and leaves the attachments of all
other nodes as they are. -/
theorem C96_marked (e : Env) (v : Obj) (store : List Att) (hn : e.t.nodeGet = .found true) (hl : e.listed = some store) (ha : ∀ n, e.accept n = true)
    (hu : ∀ a ∈ store, ∀ b ∈ store, a.name = b.name → a = b) :
    (∀ a, ¬ Attached v.node (run e (v, store)).2 a) ∧ ∀ a, a.node ≠ v.node → (a ∈ (run e (v, store)).2 ↔ a ∈ store) := by
  constructor
  · intro a h
    obtain ⟨h3, h4⟩ := deleted_spec _ _ _ _ _ h
    have := h4 (C96_all e v.node store hn hl a h3)
    rw [ha] at this
    cases this
  · intro a hne
    have hno : ∀ b ∈ store, b.node ≠ v.node → ¬ ((requests e v.node).contains b.name && e.accept b.name) = true := by
      intro b hb hbn hc
      rw [Bool.and_eq_true, List.contains_iff_mem] at hc
      obtain ⟨l, c, hl', hc1, hc2⟩ := C96_only_own e v.node b.name hc.1
      rw [hl] at hl'
      cases hl'
      have := hu c hc1.1 b hb hc2
      rw [this] at hc1
      exact hbn hc1.2.1
    show a ∈ deleted e.accept (requests e v.node) store ↔ _
    unfold deleted
    rw [List.mem_map]
    constructor
    · rintro ⟨b, hb, h⟩
      by_cases hb' : b.node = v.node
      · exfalso
        apply hne
        rw [← h]
        split <;> exact hb'
      · rw [if_neg (hno b hb hb')] at h
        exact h ▸ hb
    · intro h
      exact ⟨a, h, if_neg (hno a h hne)⟩

/-- C96: When no attachment of the node is left whose deletion was not asked for, the VM's turn comes, if the status is old enough to be rewritten. -/
theorem C96_proceeds (e : Env) (v : Obj) (store l : List Att) (hd : Due v) (hn : NameLike v.node) (hg : e.t.nodeGet = .found true) (hl : e.listed = some l)
    (ha : ∀ a, ¬ Attached v.node l a) (hc : e.t.classOk = true) (hold : v.st.opTime < e.t.now - Similar.tolerance) : VMNext (run e (v, store)).1 := by
  have hr : (run e (v, store)).1 = Termination.run (e.term v.node) v := rfl
  rw [hr, run_due _ _ hd]
  have hg' : (e.term v.node).nodeGet = .found true := hg
  have hlv : (e.term v.node).liveVols = some false := by
    unfold Env.term
    rw [hl]
    cases hx : live v.node l with
    | nil => simp [hx]
    | cons x r => exact absurd (mem_live.1 (hx ▸ List.mem_cons_self)) (ha x)
  have hc' : (e.term v.node).classOk = true := hc
  rw [if_pos hc']
  unfold volStep
  rw [hg']
  dsimp only
  rw [hlv]
  dsimp only
  rcases write_cases (e.term v.node) v (volStatus (e.term v.node) v ("No Live VolumeAttachments for node: " ++ v.node ++ ". Moving to VM Deletion. " ++ TStep.vm.text)) with ⟨_, h⟩ | h
  · have : (e.term v.node).now = e.t.now := rfl
    rw [this] at h
    omega
  · rw [h]
    exact ⟨hd.1, hd.2.1, decode_frame lit lit (by decide +kernel) (by decide +kernel) hn.clean⟩

/-- runs one after another, each with an up-to-date list -/
def runs (es : List Env) (s : Obj × List Att) : Obj × List Att := es.foldl (fun s e => run { e with listed := some s.2 } s) s

/-- C96, false part: If the deletion of one attachment is refused again and again while the node reports attached volumes, the machine never gets beyond this
stage, although its deletion is forced: its VM stays. -/
theorem C96_stuck_false (a : Att) : ∀ (es : List Env) (v : Obj) (store : List Att), Due v → Attached v.node store a →
    (∀ e ∈ es, e.t.nodeGet = .found true ∧ e.accept a.name = false) → (runs es (v, store)).1 = v := by
  intro es
  induction es with
  | nil => intro v store _ _ _; rfl
  | cons e es ih =>
    intro v store hd ha he
    have he' := he e List.mem_cons_self
    have h1 : (run { e with listed := some store } (v, store)).1 = v := by
      refine Decidable.byContradiction fun hne => ?_
      rcases C96_waits { e with listed := some store } (v, store) hd hne with ⟨t, h⟩ | h | ⟨l, h, h'⟩
      · rw [show ({ e with listed := some store } : Env).t.nodeGet = .found true from he'.1] at h; cases h
      · rw [show ({ e with listed := some store } : Env).t.nodeGet = .found true from he'.1] at h; cases h
      · cases h
        exact h' a ha
    have h2 : Attached v.node (run { e with listed := some store } (v, store)).2 a := by
      refine ⟨?_, ha.2⟩
      refine List.mem_map.2 ⟨a, ha.1, ?_⟩
      have : ({ e with listed := some store } : Env).accept a.name = false := he'.2
      rw [this, Bool.and_false]
      rfl
    show (runs es (run { e with listed := some store } (v, store))).1 = v
    rw [show run { e with listed := some store } (v, store) = (v, (run { e with listed := some store } (v, store)).2) from Prod.ext h1 rfl]
    exact ih v _ hd h2 (fun x hx => he x (List.mem_cons_of_mem _ hx))

/-- a machine after a forced drain -/
def forcedOff : Obj := { node := "n", deleting := some 0, st := { phase := .terminating, desc := "Force Drain successful. Delete Volume Attachments", state := "Processing", opType := "Delete" } }

theorem forcedOff_due : Due forcedOff := ⟨rfl, rfl, by decide +kernel⟩

/-- C96, false part: If the node reports no attached volumes, its attachments are not looked at: they are left behind and the VM's turn comes. -/
theorem C96_left_behind_false : ∃ (e : Env) (store : List Att) (a : Att), Attached "n" store a ∧ e.listed = some store ∧ e.t.nodeGet = .found false ∧
    (run e (forcedOff, store)).2 = store ∧ VMNext (run e (forcedOff, store)).1 := by
  refine ⟨{ t := { now := 60 * 60 * 1000000000 }, listed := some [⟨"a", "n", false⟩] }, [⟨"a", "n", false⟩], ⟨"a", "n", false⟩, ⟨List.mem_singleton.2 rfl, rfl, rfl⟩, rfl, rfl, rfl, ?_⟩
  have hr : (run { t := { now := 60 * 60 * 1000000000 }, listed := some [⟨"a", "n", false⟩] } (forcedOff, [⟨"a", "n", false⟩])).1 =
      Termination.run { now := 60 * 60 * 1000000000, liveVols := some true } forcedOff := rfl
  rw [hr, run_due _ _ forcedOff_due]
  rcases write_cases { now := 60 * 60 * 1000000000, liveVols := some true } forcedOff (volStatus { now := 60 * 60 * 1000000000, liveVols := some true } forcedOff
    ("Node Volumes for node: " ++ forcedOff.node ++ " are already detached. Moving to VM Deletion. " ++ TStep.vm.text)) with ⟨_, h⟩ | h
  · exact absurd h (by decide)
  · show VMNext ((applyWrite _ forcedOff _).getD forcedOff)
    rw [h]
    have hn : NameLike "n" := by unfold NameLike; decide
    exact ⟨rfl, rfl, decode_frame lit lit (by decide +kernel) (by decide +kernel) hn.clean⟩

/-- two attachments of the node and one of another; the first two are deleted -/
example : requests { t := { nodeGet := .found true }, listed := some [⟨"a", "n", false⟩, ⟨"b", "m", false⟩, ⟨"c", "n", false⟩, ⟨"d", "n", true⟩] } "n" = ["a", "c"] := by decide

/-- the hypotheses of `C96_stuck_false` hold for a machine after a forced drain -/
example : (runs [{ t := { nodeGet := .found true }, listed := none, accept := fun _ => false }] (forcedOff, [⟨"a", "n", false⟩])).1 = forcedOff :=
  C96_stuck_false ⟨"a", "n", false⟩ _ _ _ forcedOff_due ⟨List.mem_singleton.2 rfl, rfl, rfl⟩ (fun e he => by cases List.mem_singleton.1 he; exact ⟨rfl, rfl⟩)

end MCM.Attach
