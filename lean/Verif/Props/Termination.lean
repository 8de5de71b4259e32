import Verif.Lemmas.Infix
import Verif.Props.Codes
/-!
C22, C23, C58: what the termination of a machine does, in all interleavings.
-/
namespace MCM.Termination
open MCM MCM.Similar MCM.Codes

/-! ### Specification -/

/-- position of a step in the termination -/
def TStep.idx : TStep → Nat
  | .getVM => 0 | .drain => 1 | .vols => 2 | .vm => 3 | .node => 4 | .fin => 5

/-- how far a machine's status says the termination has come; 0 at (or before) the beginning -/
def reached (o : Obj) : Nat :=
  if o.st.phase = .terminating then (match decode o.st.desc with | some s => s.idx | none => 0) else 0

/-- the provider has confirmed that the VM is deleted or not found -/
def VMGone : Event → Prop
  | .deleteVM _ ans => ans.err = none ∨ ∃ text m, ans.err = some text ∧ fromError text = some (.notFound, m)
  | _ => False

/-- the node object is deleted, not found, or was never known -/
def NodeGone : Event → Prop
  | .deleteNode _ .ok => True
  | .deleteNode _ (.notFound _) => True
  | .noNode => True
  | _ => False

/-- the drain succeeded, was forced, or there is no node -/
def Drained : Event → Prop
  | .drained f err => f = true ∨ err = none
  | .noDrain => True
  | _ => False

/-- `VMGone` and later `NodeGone` -/
def BothGone (tr : List Event) : Prop :=
  ∃ a x b y c, tr = a ++ x :: b ++ y :: c ∧ VMGone x ∧ NodeGone y

/-! ### Reading the description -/

attribute [local irreducible] TStep.text

theorem decode_some {d : String} {s : TStep} (h : decode d = some s) :
    s.text.toList <:+: d.toList ∧ ∀ s' : TStep, s'.idx < s.idx → ¬ s'.text.toList <:+: d.toList := by
  unfold decode at h
  obtain ⟨h1, as, bs, h2, h3⟩ := List.find?_eq_some_iff_append.1 h
  refine ⟨(contains_iff _ _).1 h1, fun s' hs' hi => ?_⟩
  have hm : s' ∈ as ++ s :: bs := by rw [← h2]; cases s' <;> simp [allSteps]
  have hp : (as ++ s :: bs).Pairwise (fun a b => a.idx < b.idx) := by rw [← h2]; simp [allSteps, TStep.idx]
  rw [List.pairwise_append] at hp
  rcases List.mem_append.1 hm with hm | hm
  · have := h3 s' hm
    rw [(contains_iff _ _).2 hi] at this
    cases this
  · rcases List.mem_cons.1 hm with rfl | hm
    · omega
    · have := (List.pairwise_cons.1 hp.2.1).1 s' hm
      omega

theorem decode_none {d : String} (h : decode d = none) (s : TStep) : ¬ s.text.toList <:+: d.toList := by
  unfold decode at h
  rw [List.find?_eq_none] at h
  intro hi
  have := h s (by cases s <;> simp [allSteps])
  rw [(contains_iff _ _).2 hi] at this
  exact this rfl

/-- C23: which step a description stands for: the first one, in the order of the steps, whose text occurs in it. -/
theorem C23_decode (d : String) (s : TStep) : decode d = some s ↔
    s.text.toList <:+: d.toList ∧ ∀ s' : TStep, s'.idx < s.idx → ¬ s'.text.toList <:+: d.toList := by
  refine ⟨decode_some, fun ⟨h1, h2⟩ => ?_⟩
  cases hd : decode d with
  | none => exact absurd h1 (decode_none hd s)
  | some s2 =>
    obtain ⟨h3, h4⟩ := decode_some hd
    rcases Nat.lt_trichotomy s.idx s2.idx with h | h | h
    · exact absurd h1 (h4 s h)
    · cases s <;> cases s2 <;> simp [TStep.idx] at h <;> rfl
    · exact absurd h3 (h2 s2 h)

/-- A description ending with a step's text stands for that step or an earlier one – whatever precedes it. -/
theorem reached_suffix {a : String} {s : TStep} {o : Obj} (h : o.st.desc = a ++ s.text) : reached o ≤ s.idx := by
  unfold reached
  split
  · cases hd : decode o.st.desc with
    | none => simp
    | some s2 =>
      dsimp only
      rcases Nat.lt_or_ge s.idx s2.idx with hlt | hge
      · exfalso
        refine (decode_some hd).2 s hlt ?_
        rw [h, String.toList_append]
        exact ⟨a.toList, [], by simp⟩
      · exact hge
  · omega

theorem reached_none {o : Obj} (h : o.st.phase = .terminating → decode o.st.desc = none) : reached o = 0 := by
  unfold reached
  split
  · rename_i hp; rw [h hp]
  · rfl

/-- the object after the flow's write is `v` with the new status, or with the finalizer dropped -/
theorem applyWrite_status {e : Env} {v o : Obj} {b : Bool} {new : MStatus} (h : applyWrite e v (.status b new) = some o) :
    o = { v with st := new } := by
  cases b with
  | true =>
    rw [applyWrite] at h
    split at h
    · cases h
    · simpa using h.symm
  | false => simpa [applyWrite] using h.symm

/-- C23 (core): one reconcile, whatever texts the environment returns. -/
theorem flow_advance (e : Env) (v o : Obj) (wr : Write) (hw : (flow e v).write = some wr) (ho : applyWrite e v wr = some o) :
    (2 ≤ reached o → 2 ≤ reached v ∨ ∃ x ∈ (flow e v).events, Drained x) ∧
    (4 ≤ reached o → 4 ≤ reached v ∨ ∃ x ∈ (flow e v).events, VMGone x) ∧
    (5 ≤ reached o → 5 ≤ reached v ∨ 4 ≤ reached v ∧ ∃ x ∈ (flow e v).events, NodeGone x) := by
  have small : ∀ (a : String) (s : TStep) (n : MStatus), o.st = n → n.desc = a ++ s.text → reached o ≤ s.idx := by
    intro a s n h1 h2; exact reached_suffix (by rw [h1]; exact h2)
  have zero : ∀ n : MStatus, o.st = n → n.desc = TStep.getVM.text → reached o = 0 := by
    intro n h1 h2
    have := small "" .getVM n h1 (by rw [h2, String.empty_append])
    simpa [TStep.idx] using this
  have restart : o.st = termStatus e v → reached o = 0 := fun h => zero _ h rfl
  unfold flow at hw ⊢
  split at hw
  · cases hw
  · split at hw
    · unfold setTerminating at hw
      simp only [Option.some.injEq] at hw; subst hw
      have := restart (by rw [applyWrite_status ho])
      rw [this]; omega
    · rename_i hf hp
      have hp : v.st.phase = .terminating := by simpa using hp
      have hrv : ∀ s, decode v.st.desc = some s → reached v = s.idx := by
        intro s hs; unfold reached; rw [if_pos hp, hs]
      rw [if_neg hf, if_neg (by simpa using hp)]
      cases hd : decode v.st.desc with
      | none =>
        rw [hd] at hw
        dsimp only at hw
        unfold setTerminating at hw
        simp only [Option.some.injEq] at hw; subst hw
        have := restart (by rw [applyWrite_status ho])
        rw [this]; omega
      | some s =>
        rw [hd] at hw
        have hr := hrv s hd
        cases s with
        | getVM =>
          dsimp only at hw ⊢
          have key : reached o ≤ 1 := by
            unfold getVMStep at hw
            split at hw
            · simp only [Option.some.injEq] at hw; subst hw
              exact small "" .drain _ (by rw [applyWrite_status ho]) (by show TStep.drain.text = _; rw [String.empty_append])
            · split at hw
              · simp only [Option.some.injEq] at hw; subst hw
                exact small "" .drain _ (by rw [applyWrite_status ho]) (by show TStep.drain.text = _; rw [String.empty_append])
              · rename_i text _
                simp only [Option.some.injEq] at hw; subst hw
                have hst : o.st = stepStatus e v (getVMError text).1 (getVMError text).2.1 := by rw [applyWrite_status ho]
                have : ∃ a, (getVMError text).1 = a ++ TStep.getVM.text ∨ (getVMError text).1 = a ++ TStep.drain.text := by
                  unfold getVMError
                  split
                  · exact ⟨_, .inl rfl⟩
                  · split
                    · exact ⟨"", .inr (by rw [String.empty_append])⟩
                    all_goals first | exact ⟨_, .inl rfl⟩ | exact ⟨_, .inr rfl⟩
                obtain ⟨a, h | h⟩ := this
                · have := small a .getVM _ hst h
                  simp only [TStep.idx] at this; omega
                · exact small a .drain _ hst h
          refine ⟨?_, ?_, ?_⟩ <;> intro h <;> omega
        | drain =>
          dsimp only at hw ⊢
          unfold drainStep at hw ⊢
          split at hw
          · simp only [Option.some.injEq] at hw; subst hw
            rename_i hnode
            rw [if_pos hnode]
            have : reached o ≤ 3 := small _ .vm _ (by rw [applyWrite_status ho]) rfl
            exact ⟨fun _ => .inr ⟨.noDrain, by simp, trivial⟩, fun h => by omega, fun h => by omega⟩
          · rename_i hnode
            rw [if_neg hnode]
            cases hts : v.deleting with
            | none => rw [hts] at hw; cases hw
            | some ts =>
              rw [hts] at hw
              dsimp only at hw ⊢
              split at hw
              · rename_i err hc hf2
                simp only [Option.some.injEq] at hw; subst hw
                have : reached o ≤ 1 := small _ .drain _ (by rw [applyWrite_status ho]) rfl
                exact ⟨fun h => by omega, fun h => by omega, fun h => by omega⟩
              · rename_i cond f hcond
                simp only [Option.some.injEq] at hw; subst hw
                have hst : o.st = stepStatus e v (drainResult (forced e v ts) e.drainErr).1 (drainResult (forced e v ts) e.drainErr).2 := by
                  rw [applyWrite_status ho]
                have h3 : reached o ≤ 3 := by
                  cases hde : e.drainErr with
                  | none =>
                    rw [hde] at hst
                    cases hf2 : forced e v ts with
                    | true =>
                      rw [hf2] at hst
                      have : reached o ≤ 2 := small _ .vols _ hst rfl
                      omega
                    | false => rw [hf2] at hst; exact small _ .vm _ hst rfl
                  | some err =>
                    rw [hde] at hst
                    cases hf2 : forced e v ts with
                    | true =>
                      rw [hf2] at hst
                      have : reached o ≤ 2 := small _ .vols _ hst rfl
                      omega
                    | false =>
                      rw [hf2] at hst
                      have : reached o ≤ 1 := small _ .drain _ hst rfl
                      omega
                refine ⟨fun h => .inr ?_, fun h => by omega, fun h => by omega⟩
                refine ⟨.drained (forced e v ts) e.drainErr, ?_, ?_⟩
                · simp
                · show forced e v ts = true ∨ e.drainErr = none
                  cases hf2 : forced e v ts with
                  | true => exact .inl rfl
                  | false =>
                    cases hde : e.drainErr with
                    | none => exact .inr rfl
                    | some err =>
                      exfalso
                      rw [hde, hf2] at hst
                      have : reached o ≤ 1 := small _ .drain _ hst rfl
                      omega
        | vols =>
          dsimp only at hw ⊢
          have h3 : reached o ≤ 3 := by
            unfold volStep at hw
            repeat' split at hw
            all_goals first
              | (simp only [Option.some.injEq] at hw; subst hw
                 exact small _ .vm _ (by rw [applyWrite_status ho]) rfl)
              | cases hw
          exact ⟨fun _ => .inl (by rw [hr]; simp [TStep.idx]), fun h => by omega, fun h => by omega⟩
        | vm =>
          dsimp only at hw ⊢
          unfold vmStep at hw
          simp only [Option.some.injEq] at hw; subst hw
          have hst : o.st.desc = (deleteVMResult e.delVM.err).1 := by rw [applyWrite_status ho]; rfl
          have h4 : reached o ≤ 4 ∧ (reached o = 4 → VMGone (.deleteVM v.deleting e.delVM)) := by
            cases herr : e.delVM.err with
            | none =>
              rw [herr] at hst
              exact ⟨reached_suffix (s := .node) hst, fun _ => .inl herr⟩
            | some err =>
              rw [herr] at hst
              have notVM : ∀ a, o.st.desc = a ++ TStep.vm.text → reached o ≤ 4 ∧ (reached o = 4 → VMGone (.deleteVM v.deleting e.delVM)) := by
                intro a h
                have : reached o ≤ 3 := reached_suffix h
                exact ⟨by omega, fun h => by omega⟩
              unfold deleteVMResult at hst
              dsimp only at hst
              cases hfe : fromError err with
              | none => rw [hfe] at hst; exact notVM _ hst
              | some p =>
                obtain ⟨c, m⟩ := p
                rw [hfe] at hst
                dsimp only at hst
                split at hst
                case h_5 => exact ⟨reached_suffix (s := .node) hst, fun _ => .inr ⟨err, m, herr, hfe⟩⟩
                all_goals exact notVM _ hst
          refine ⟨fun _ => .inl (by rw [hr]; simp [TStep.idx]), fun h => .inr ?_, fun h => by omega⟩
          exact ⟨_, by unfold vmStep; simp, h4.2 (by omega)⟩
        | node =>
          dsimp only at hw ⊢
          have hr4 : 4 ≤ reached v := by rw [hr]; simp [TStep.idx]
          refine ⟨fun _ => .inl (by omega), fun _ => .inl hr4, fun h => .inr ⟨hr4, ?_⟩⟩
          unfold nodeStep at hw ⊢
          split at hw
          · rename_i hn
            rw [if_pos hn]
            simp only [Option.some.injEq] at hw; subst hw
            refine ⟨.deleteNode v.node e.delNode, by simp, ?_⟩
            cases hdn : e.delNode with
            | ok => trivial
            | notFound t => trivial
            | fail t =>
              exfalso
              have : reached o ≤ 4 := reached_suffix (s := .node) (a := "Deletion of Node Object " ++ quote v.node ++ " failed due to error: " ++ t ++ ". ")
                (by rw [applyWrite_status ho, hdn]; rfl)
              omega
          · rename_i hn
            rw [if_neg hn]
            exact ⟨.noNode, by simp, trivial⟩
        | fin =>
          have : 5 ≤ reached v := by rw [hr]; simp [TStep.idx]
          exact ⟨fun _ => .inl (by omega), fun _ => .inl (by omega), fun _ => .inl this⟩

/-- a finalizer is dropped, and a VM is deleted, only at the respective step -/
theorem flow_calls (e : Env) (v : Obj) :
    ((flow e v).write = some .dropFinalizer → reached v = 5) ∧
    (∀ ts ans, Event.deleteVM ts ans ∈ (flow e v).events → reached v = 3 ∧ ts = v.deleting) ∧
    Event.finalizerRemoved ∉ (flow e v).events ∧ (flow e v).events.length ≤ 1 := by
  unfold flow
  split
  · exact ⟨fun h => (nomatch h), fun _ _ h => (nomatch h), fun h => (nomatch h), by simp⟩
  · split
    · exact ⟨fun h => (nomatch h), fun _ _ h => (nomatch h), fun h => (nomatch h), by simp [setTerminating]⟩
    · rename_i hp
      have hp : v.st.phase = .terminating := by simpa using hp
      have hrv : ∀ s, decode v.st.desc = some s → reached v = s.idx := by
        intro s hs; unfold reached; rw [if_pos hp, hs]
      cases hd : decode v.st.desc with
      | none => exact ⟨fun h => (nomatch h), fun _ _ h => (nomatch h), fun h => (nomatch h), by simp [setTerminating]⟩
      | some s =>
        have hr := hrv s hd
        cases s with
        | getVM =>
          dsimp only
          unfold getVMStep
          repeat' split
          all_goals exact ⟨by simp, by simp, by simp, by simp⟩
        | drain =>
          dsimp only
          unfold drainStep
          repeat' split
          all_goals exact ⟨by simp, by simp, by simp, by simp⟩
        | vols =>
          dsimp only
          unfold volStep
          repeat' split
          all_goals exact ⟨by simp, by simp, by simp, by simp⟩
        | vm =>
          dsimp only
          unfold vmStep
          refine ⟨by simp, ?_, by simp, by simp⟩
          intro ts ans h
          simp only [List.mem_singleton, Event.deleteVM.injEq] at h
          exact ⟨hr, h.1⟩
        | node =>
          dsimp only
          unfold nodeStep
          repeat' split
          all_goals exact ⟨by simp, by simp, by simp, by simp⟩
        | fin => exact ⟨fun _ => hr, by simp [finStep], by simp [finStep], by simp [finStep]⟩

/-- C23: After any reconcile, whatever the provider's and the API server's error texts contain, the step now recorded is later
than draining only if this or an earlier step drained the node (or had to skip or force it), later than the VM deletion only if
the provider confirmed it, and the last one only if the node is gone. -/
theorem C23_error_text_cannot_skip (e : Env) (v o : Obj) (wr : Write) (hw : (flow e v).write = some wr)
    (ho : applyWrite e v wr = some o) :
    (reached v ≤ TStep.drain.idx → TStep.drain.idx < reached o → ∃ x ∈ (flow e v).events, Drained x) ∧
    (reached v ≤ TStep.vm.idx → TStep.vm.idx < reached o → ∃ x ∈ (flow e v).events, VMGone x) ∧
    (reached v ≤ TStep.node.idx → TStep.node.idx < reached o →
      reached v = TStep.node.idx ∧ ∃ x ∈ (flow e v).events, NodeGone x) := by
  obtain ⟨h1, h2, h3⟩ := flow_advance e v o wr hw ho
  simp only [TStep.idx]
  refine ⟨fun a b => ?_, fun a b => ?_, fun a b => ?_⟩
  · rcases h1 (by omega) with h | h
    · omega
    · exact h
  · rcases h2 (by omega) with h | h
    · omega
    · exact h
  · rcases h3 (by omega) with h | ⟨h, h'⟩
    · omega
    · exact ⟨by omega, h'⟩

/-- an error text imitating the last step does not get past the VM deletion -/
example : reached { st := { phase := .terminating, desc := (deleteVMResult (some
    (render .internal "Initiate machine object finalizer removal Initiate node object deletion"))).1 } } = 3 := by decide +kernel

/-! ### All interleavings -/

/-- what a stored object may say, given the calls made so far -/
def Justified (tr : List Event) (o : Obj) : Prop :=
  (2 ≤ reached o → ∃ x ∈ tr, Drained x) ∧ (4 ≤ reached o → ∃ x ∈ tr, VMGone x) ∧ (5 ≤ reached o → BothGone tr)

theorem BothGone.append {tr : List Event} (h : BothGone tr) (l : List Event) : BothGone (tr ++ l) := by
  obtain ⟨a, x, b, y, c, h, hx, hy⟩ := h
  exact ⟨a, x, b, y, c ++ l, by rw [h]; simp, hx, hy⟩

theorem Justified.append {tr : List Event} {o : Obj} (h : Justified tr o) (l : List Event) : Justified (tr ++ l) o := by
  refine ⟨fun k => ?_, fun k => ?_, fun k => (h.2.2 k).append l⟩
  · obtain ⟨x, hx, hd⟩ := h.1 k; exact ⟨x, by simp [hx], hd⟩
  · obtain ⟨x, hx, hd⟩ := h.2.1 k; exact ⟨x, by simp [hx], hd⟩

/-- every removal of the finalizer and every VM deletion in the trace comes after what it requires -/
def Ordered (tr : List Event) : Prop :=
  ∀ pre x post, tr = pre ++ x :: post →
    (x = .finalizerRemoved → BothGone pre) ∧ (∀ ts ans, x = .deleteVM ts ans → ∃ d ∈ pre, Drained d)

theorem Ordered.snoc {tr : List Event} (h : Ordered tr) (x : Event) (h1 : x = .finalizerRemoved → BothGone tr)
    (h2 : ∀ ts ans, x = .deleteVM ts ans → ∃ d ∈ tr, Drained d) : Ordered (tr ++ [x]) := by
  intro pre y post he
  rcases List.eq_nil_or_concat post with rfl | ⟨post', z, rfl⟩
  · have := List.append_inj' he (by rfl)
    obtain ⟨rfl, hy⟩ := this
    simp only [List.cons.injEq, and_true] at hy
    subst hy
    exact ⟨h1, h2⟩
  · have he' : tr ++ [x] = (pre ++ y :: post') ++ [z] := by simpa using he
    have := List.append_inj' he' (by rfl)
    exact h pre y post' this.1

structure Inv (w : World) : Prop where
  hist : ∀ o ∈ w.hist, Justified w.trace o
  pending : ∀ b o fin, (b, o, fin) ∈ w.pending → Justified w.trace o ∧ (fin = true → BothGone w.trace)
  ordered : Ordered w.trace

theorem harmless_reached {v new : Obj} (h : Harmless v new) : reached new ≤ reached v := by
  unfold Harmless at h
  by_cases hp : new.st.phase = .terminating
  · rcases h with h | ⟨h1, h2⟩ | h
    · exact absurd hp h
    · unfold reached
      rw [if_pos hp, if_pos (by rw [← h1]; exact hp), h2]
      exact Nat.le_refl _
    · have : reached new = 0 := reached_none fun _ => by rw [h]; decide +kernel
      omega
  · have : reached new = 0 := by unfold reached; rw [if_neg hp]
    omega

theorem justified_mono {tr : List Event} {v o : Obj} (h : Justified tr v) (hr : reached o ≤ reached v) : Justified tr o :=
  ⟨fun k => h.1 (by omega), fun k => h.2.1 (by omega), fun k => h.2.2 (by omega)⟩

theorem inv_act {w : World} (hi : Inv w) (e : Env) (b : Nat) (v : Obj) (hv : v ∈ w.hist) : Inv (w.act e b v) := by
  have hjv := hi.hist v hv
  obtain ⟨c1, c2, c3, c4⟩ := flow_calls e v
  have hord : Ordered (w.trace ++ (flow e v).events) := by
    cases hev : (flow e v).events with
    | nil => simpa using hi.ordered
    | cons x rest =>
      have hrest : rest = [] := by
        rw [hev] at c4
        exact List.eq_nil_of_length_eq_zero (by simpa using c4)
      subst hrest
      refine hi.ordered.snoc x (fun hx => ?_) (fun ts ans hx => ?_)
      · exfalso; rw [hev, hx] at c3; simp at c3
      · have := c2 ts ans (by rw [hev, hx]; simp)
        exact hjv.1 (by omega)
  refine ⟨fun o ho => (hi.hist o ho).append _, ?_, hord⟩
  intro b' o fin hmem
  have old : (b', o, fin) ∈ w.pending → Justified (w.trace ++ (flow e v).events) o ∧
      (fin = true → BothGone (w.trace ++ (flow e v).events)) := by
    intro h
    obtain ⟨h1, h2⟩ := hi.pending b' o fin h
    exact ⟨h1.append _, fun hf => (h2 hf).append _⟩
  unfold World.act at hmem
  dsimp only at hmem
  cases hw : (flow e v).write with
  | none => rw [hw] at hmem; exact old hmem
  | some wr =>
    rw [hw] at hmem
    cases ho : applyWrite e v wr with
    | none => simp only [ho] at hmem; exact old hmem
    | some o2 =>
      simp only [ho] at hmem
      rcases List.mem_cons.1 hmem with h | h
      · simp only [Prod.mk.injEq] at h
        obtain ⟨rfl, rfl, rfl⟩ := h
        show Justified (w.trace ++ (flow e v).events) o ∧ (_ → BothGone (w.trace ++ (flow e v).events))
        obtain ⟨a1, a2, a3⟩ := flow_advance e v o wr hw ho
        refine ⟨⟨fun k => ?_, fun k => ?_, fun k => ?_⟩, fun hfin => ?_⟩
        · rcases a1 k with h | ⟨x, hx, hd⟩
          · obtain ⟨x, hx, hd⟩ := hjv.1 h; exact ⟨x, by simp [hx], hd⟩
          · exact ⟨x, by simp [hx], hd⟩
        · rcases a2 k with h | ⟨x, hx, hd⟩
          · obtain ⟨x, hx, hd⟩ := hjv.2.1 h; exact ⟨x, by simp [hx], hd⟩
          · exact ⟨x, by simp [hx], hd⟩
        · rcases a3 k with h | ⟨h4, y, hy, hd⟩
          · exact (hjv.2.2 h).append _
          · obtain ⟨x, hx, hvm⟩ := hjv.2.1 h4
            obtain ⟨a, t, hat⟩ := List.append_of_mem hx
            obtain ⟨c, d, hcd⟩ := List.append_of_mem hy
            exact ⟨a, x, t ++ c, y, d, by rw [hat, hcd]; simp, hvm, hd⟩
        · have hwr : wr = .dropFinalizer := by simpa using hfin
          have := c1 (by rw [hw, hwr])
          exact (hjv.2.2 (by omega)).append _
      · exact old h

theorem inv_step {w w' : World} (hi : Inv w) (hs : Step w w') : Inv w' := by
  cases hs with
  | act e b v hv _ => exact inv_act hi e b v (List.mem_of_getElem? hv)
  | afterLabel e b v n hv _ => exact inv_act hi e b v (List.mem_of_getElem? hv)
  | label e b v n hv _ _ _ =>
    refine ⟨fun o ho => ?_, hi.pending, hi.ordered⟩
    rcases List.mem_append.1 ho with h | h
    · exact hi.hist o h
    · rw [List.mem_singleton.1 h]
      exact justified_mono (hi.hist v (List.mem_of_getElem? hv)) (Nat.le_refl (reached v))
  | land b o fin hp _ =>
    obtain ⟨h1, h2⟩ := hi.pending b o fin hp
    cases fin with
    | false =>
      refine ⟨fun o' ho => ?_, hi.pending, hi.ordered⟩
      rcases List.mem_append.1 ho with h | h
      · exact hi.hist o' h
      · rw [List.mem_singleton.1 h]; exact h1
    | true =>
      refine ⟨fun o' ho => ?_, fun b' o' f' hp' => ?_, ?_⟩
      · show Justified (w.trace ++ _) o'
        rcases List.mem_append.1 ho with h | h
        · exact (hi.hist o' h).append _
        · rw [List.mem_singleton.1 h]; exact h1.append _
      · obtain ⟨k1, k2⟩ := hi.pending b' o' f' hp'
        exact ⟨k1.append _, fun hf => (k2 hf).append _⟩
      · exact hi.ordered.snoc _ (fun _ => h2 rfl) (fun _ _ h => (nomatch h))
  | other b v new hv _ hh =>
    refine ⟨fun o ho => ?_, hi.pending, hi.ordered⟩
    rcases List.mem_append.1 ho with h | h
    · exact hi.hist o h
    · rw [List.mem_singleton.1 h]
      exact justified_mono (hi.hist v (List.mem_of_getElem? hv)) (harmless_reached hh)

theorem reach_inv {w0 w : World} (h0 : Inv w0) (h : Reach w0 w) : Inv w := by
  induction h with
  | refl => exact h0
  | step _ hs ih => exact inv_step ih hs

/-- Start of a history: one stored object that does not claim to be past the drain, nothing called, nothing on its way. -/
def Start (w : World) : Prop :=
  w.trace = [] ∧ w.pending = [] ∧ ∀ o ∈ w.hist, reached o < 2

theorem inv_start {w : World} (h : Start w) : Inv w := by
  obtain ⟨h1, h2, h3⟩ := h
  refine ⟨fun o ho => ?_, fun b o fin hm => ?_, ?_⟩
  · have := h3 o ho
    exact ⟨fun k => by omega, fun k => by omega, fun k => by omega⟩
  · rw [h2] at hm; cases hm
  · intro pre x post h
    rw [h1] at h
    simp at h

/-- C22: In every interleaving of reconciles (on any cached version, stopped at any point, with any answers of the provider and
the API server, their writes delayed or lost) with other controllers' writes, the finalizer is removed only after the provider
confirmed that the VM is deleted or not found and, after that, the node object was deleted, not found or never known. -/
theorem C22_finalizer_outlives_vm (w0 w : World) (h0 : Start w0) (h : Reach w0 w) (pre post : List Event)
    (ht : w.trace = pre ++ .finalizerRemoved :: post) :
    ∃ a x b y c, pre = a ++ x :: b ++ y :: c ∧ VMGone x ∧ NodeGone y :=
  ((reach_inv (inv_start h0) h).ordered pre _ post ht).1 rfl

/-- C22: if the provider's errors are well-formed status errors, "confirmed" means that it answered without error or with the
code NotFound. -/
theorem C22_confirmation (ts : Option Int) (ans : DelAns) (hg : VMGone (.deleteVM ts ans))
    (hw : ∀ text, ans.err = some text → ∃ c m, Named c ∧ text = render c m) :
    ans.err = none ∨ ∃ m, ans.err = some (render .notFound m) := by
  rcases hg with h | ⟨text, m, h1, h2⟩
  · exact .inl h
  · obtain ⟨c, m', hn, rfl⟩ := hw text h1
    have := C32_code_never_wrong c hn m' _ _ h2
    subst this
    exact .inr ⟨m', h1⟩

/-- C58: In every interleaving a VM is deleted only after the node was drained, or the drain was forced, or no node is known. -/
theorem C58_drain_before_deletion (w0 w : World) (h0 : Start w0) (h : Reach w0 w) (pre post : List Event) (ts : Option Int)
    (ans : DelAns) (ht : w.trace = pre ++ .deleteVM ts ans :: post) : ∃ d ∈ pre, Drained d :=
  ((reach_inv (inv_start h0) h).ordered pre _ post ht).2 ts ans rfl

end MCM.Termination
