import Verif.Model.Tokens
import Verif.Model.Rough
import Verif.Props.Lifecycle
/-!
C122: how long the bootstrap token of a machine lives. The token lets whoever has it join a node to the cluster. It should be valid while the machine is expected to join, and go away with the
join or, at the latest, when the time for joining is over.
-/
namespace MCM.Tokens
open MCM MCM.Lifecycle

/-! ### Spec -/

/-- the API server accepts the token -/
def Valid (t : Tok) (now : Int) : Prop := now < t.expires

/-- the expiry time is, but for the fraction of a second, the timeout after the beginning of an attempt to create the machine -/
def Dated (attempts : List (Int × Int)) (upTo : Int) (t : Tok) : Prop :=
  ∃ a ∈ attempts, a.1 ≤ upTo ∧ t.expires ≤ a.1 + a.2 ∧ a.1 + a.2 - 1000000000 < t.expires

/-! ### Every token expires -/

theorem whole_spec (t : Int) : whole t ≤ t ∧ t - 1000000000 < whole t := by
  unfold whole second
  omega

theorem dated_mono {l l' : List (Int × Int)} {a b : Int} {t : Tok} (h : Dated l a t) (hl : ∀ x ∈ l, x ∈ l') (hab : a ≤ b) : Dated l' b t :=
  let ⟨x, hx, h1, h2⟩ := h
  ⟨x, hl x hx, Int.le_trans h1 hab, h2⟩

theorem fetch_dated {e : Env} {v : Obj} {r : String} {tok : Option Tok} {l : List (Int × Int)} {now : Int} (hn : now ≤ e.c.now)
    (h : ∀ t, tok = some t → Dated l now t) : Dated ((e.c.now, v.creationTimeout) :: l) e.c.now (fetch e v r tok) := by
  cases tok with
  | none => exact ⟨_, List.mem_cons_self .., Int.le_refl _, (whole_spec _).1, (whole_spec _).2⟩
  | some t => exact dated_mono (h t rfl) (fun x hx => List.mem_cons_of_mem _ hx) hn

/-- a run that calls `CreateMachine` is in the creation flow -/
theorem calls_enters {e : Env} {v : Obj} (h : calls e v = true) : enters e v = true := by
  unfold calls at h
  rw [Bool.and_eq_true] at h
  obtain ⟨hg, hc⟩ := h
  unfold Creation.creates at hc
  unfold enters gate
  rw [hg]
  unfold Creation.reconcile at hc
  split at hc
  · cases hc
  rename_i hd
  split at hc
  · cases hc
  rename_i h1
  split at hc
  · cases hc
  rename_i h2
  split at hc
  · cases hc
  rename_i hf
  split at hc
  · cases hc
  split at hc
  · rename_i hcr
    simp only [Bool.or_eq_true, Bool.not_eq_true', not_or, Bool.not_eq_true, Bool.not_eq_false] at hd h1 h2 hf
    simp only [Bool.and_eq_true, Bool.or_eq_true, decide_eq_true_eq, Bool.not_eq_true']
    exact ⟨⟨⟨⟨⟨⟨⟨⟨hd, h1.1.1⟩, h1.1.2⟩, h1.2⟩, h2.1⟩, h2.2⟩, hf⟩, trivial⟩, by
      rcases hcr with h | h | h
      · exact .inl (.inl h)
      · exact .inl (.inr h)
      · exact .inr h⟩
  · cases hc

/-- the stored token and those given away are dated -/
def Good (s : S) : Prop :=
  (∀ t, s.tok = some t → Dated s.attempts s.now t) ∧ (∀ p ∈ s.given, p.1 ≤ s.now ∧ Dated s.attempts p.1 p.2)

theorem good_run {s : S} {e : Env} {v : Obj} {l : Luck} (h : Good s) (hn : s.now ≤ e.c.now) : Good (s.run e v l) := by
  have hsub : ∀ x ∈ s.attempts, x ∈ (if enters e v then [(e.c.now, v.creationTimeout)] else []) ++ s.attempts :=
    fun x hx => List.mem_append_right _ hx
  have hold : ∀ t, s.tok = some t → Dated (s.run e v l).attempts e.c.now t := fun t ht => dated_mono (h.1 t ht) hsub hn
  have hnew : enters e v = true → Dated (s.run e v l).attempts e.c.now (fetch e v l.random s.tok) := by
    intro he
    show Dated ((if enters e v then [(e.c.now, v.creationTimeout)] else []) ++ s.attempts) _ _
    rw [if_pos he]
    exact fetch_dated hn h.1
  refine ⟨fun t ht => ?_, fun p hp => ?_⟩
  · have ht : tokAfter e v l s.tok = some t := ht
    unfold tokAfter at ht
    split at ht
    · split at ht
      · cases ht
      · exact hold t ht
    · split at ht
      · rename_i he
        split at ht
        · cases ht; exact hnew he
        · exact hold t ht
      · exact hold t ht
  · have hp : p ∈ (if calls e v then [(e.c.now, fetch e v l.random s.tok)] else []) ++ s.given := hp
    rcases List.mem_append.1 hp with hp | hp
    · split at hp
      · rename_i hc
        cases List.mem_singleton.1 hp
        exact ⟨Int.le_refl _, hnew (calls_enters hc)⟩
      · cases hp
    · have := h.2 p hp
      exact ⟨Int.le_trans this.1 hn, dated_mono this.2 hsub (Int.le_refl _)⟩

theorem good_reach {opts : Opts} {s : S} (h : Reach opts s) : Good s := by
  induction h with
  | new => exact ⟨nofun, nofun⟩
  | step _ hs ih =>
    cases hs with
    | run e v l hn => exact good_run ih hn
    | write => exact ih
    | wait t ht => exact ⟨fun x hx => dated_mono (ih.1 x hx) (fun _ h => h) ht, fun p hp => ⟨Int.le_trans (ih.2 p hp).1 ht, (ih.2 p hp).2⟩⟩
    | clean => exact ⟨nofun, ih.2⟩

/-- C122: whatever fails, whatever caches show and whoever writes to the machine, every token there is, and every token ever given to a VM, expires at most the creation timeout after an
attempt to create the machine, the attempt not being later than the call it was given with. -/
theorem C122_every_token_expires (opts : Opts) (s : S) (h : Reach opts s) :
    (∀ t, s.tok = some t → Dated s.attempts s.now t) ∧ (∀ p ∈ s.given, Dated s.attempts p.1 p.2) :=
  ⟨(good_reach h).1, fun p hp => ((good_reach h).2 p hp).2⟩

/-- C122: once all attempts are older than the timeout, neither the stored token nor any token ever given to a VM is accepted. -/
theorem C122_no_lasting_token (opts : Opts) (s : S) (h : Reach opts s) (hq : ∀ a ∈ s.attempts, a.1 + a.2 ≤ s.now) :
    (∀ t, s.tok = some t → ¬ Valid t s.now) ∧ (∀ p ∈ s.given, ¬ Valid p.2 s.now) := by
  have key : ∀ {u t}, Dated s.attempts u t → ¬ Valid t s.now := by
    rintro u t ⟨a, ha, _, h1, _⟩ hv
    have := hq a ha
    unfold Valid at hv
    omega
  exact ⟨fun t ht => key ((good_reach h).1 t ht), fun p hp => key ((good_reach h).2 p hp).2⟩

/-! ### A token lasts as long as the machine is waited for -/

/-- C122, as far as it is true: the VM created by a machine's first attempt gets a token that is valid for the creation timeout, less the fraction of a second. -/
theorem C122_first_attempt_partial (s : S) (e : Env) (v : Obj) (l : Luck) (hc : calls e v = true) (hn : s.tok = none) :
    ∃ t rest, (s.run e v l).given = (e.c.now, t) :: rest ∧ ∀ now, now ≤ e.c.now + v.creationTimeout - 1000000000 → Valid t now := by
  refine ⟨fetch e v l.random s.tok, s.given, ?_, fun now h => ?_⟩
  · show (if calls e v then [(e.c.now, fetch e v l.random s.tok)] else []) ++ s.given = _
    rw [if_pos hc]; rfl
  · rw [hn]
    have := (whole_spec (e.c.now + v.creationTimeout)).2
    unfold Valid fetch
    exact Int.lt_of_le_of_lt h this

/-- C122: the hypothesis of the theorem before is met by every machine without a node that can be created and whose VM the provider does not know. -/
theorem C122_calls (e : Env) (v : Obj) (h : Creation.Ready e.c v.toObj) (hn : v.node = none) {text : String} {resp : Option (String × String)} {m : String} (hs : e.c.status = .err text resp)
    (hf : Codes.fromError text = some (.notFound, m) ∨ Codes.fromError text = some (.unimplemented, m)) : calls e v = true := by
  unfold calls goesOn
  rw [Bool.and_eq_true]
  refine ⟨?_, Creation.creates_of_none (e := { e.c with health := none }) ⟨h.alive, h.fin, h.running, h.valid, h.cls, h.clsFin, h.tmpl, rfl, h.user, h.need⟩ hn hs hf⟩
  rw [hn]
  simp

/-! ### The token goes away when the machine has joined -/

/-- the last operation is a creation that has not succeeded -/
def Unfinished (o : Obj) : Prop := o.st.opType = "Create" ∧ o.st.state ≠ "Successful" ∧ o.st.phase ≠ .running ∧ o.st.phase ≠ .unknown

/-- what the creation flow writes to the status -/
def Step1 (v o : Creation.Obj) : Prop :=
  o.st = v.st ∨ (o.st.opType = "Create" ∧ o.st.state ≠ "Successful" ∧ (o.st.phase = .pending ∨ o.st.phase = .failed ∨ o.st.phase = .crashLoopBackOff))

theorem failed3 {e : Creation.Env} {v : Creation.Obj} {p : Phase} (h : p = Creation.failurePhase e v) : p = .pending ∨ p = .failed ∨ p = .crashLoopBackOff := by
  rcases failurePhase_cases e v with h' | h' <;> rw [h'] at h
  · exact .inr (.inl h)
  · exact .inr (.inr h)

theorem create_op {e : Creation.Env} {v o : Creation.Obj} (h : (Creation.reconcile e v).wrote = some o) : Step1 v o := by
  have hr : ∀ n p u ev, (Creation.record e v n p u ev).wrote = some o → Step1 v o := by
    intro n p u ev h
    unfold Creation.record at h
    dsimp only at h
    have hl : ∀ x, (if (Creation.needsLabels v && e.labelRes == .ok) = true then some (Creation.labelled v n p) else none) = some x → x.st = v.st := by
      intro x hx
      split at hx
      · cases hx; rfl
      · cases hx
    generalize (if (Creation.needsLabels v && e.labelRes == .ok) = true then some (Creation.labelled v n p) else none) = wr at h hl
    split at h
    · unfold Creation.initVM at h
      dsimp only at h
      split at h
      · exact .inl (hl o h)
      · split at h
        · exact .inl (hl o h)
        · split at h
          · exact .inl (hl o h)
          · rcases withStatus_exact h with h | h
            · subst h; exact .inr ⟨rfl, (by decide : ("Failed" : String) ≠ "Successful"), failed3 rfl⟩
            · exact .inl (hl o h)
    · split at h
      · exact .inl (hl o h)
      · split at h
        · dsimp only at h
          split at h
          · cases h; exact .inr ⟨rfl, (by decide : ("Processing" : String) ≠ "Successful"), .inl rfl⟩
          · cases h
        · cases h
  have he : ∀ t l ev, (Creation.createError e v t l ev).wrote = some o → Step1 v o := by
    intro t l ev h
    rcases withStatus_exact h with h | h
    · subst h; exact .inr ⟨rfl, (by decide : ("Failed" : String) ≠ "Successful"), failed3 rfl⟩
    · cases h
  have hc : (Creation.createStep e v).wrote = some o → Step1 v o := by
    intro h
    unfold Creation.createStep at h
    dsimp only at h
    split at h
    · exact he _ _ _ h
    · split at h
      · rcases withStatus_exact h with h | h
        · subst h; exact .inr ⟨rfl, (by decide : ("Failed" : String) ≠ "Successful"), .inr (.inl rfl)⟩
        · cases h
      · exact hr _ _ _ _ h
  unfold Creation.reconcile at h
  split at h
  · cases h
  split at h
  · cases h
  split at h
  · cases h
  split at h
  · dsimp only at h
    split at h
    · cases h; exact .inl rfl
    · cases h
  split at h
  · cases h
  split at h
  · unfold Creation.creation at h
    split at h
    · cases h
    dsimp only at h
    split at h
    · exact hr _ _ _ _ h
    · split at h
      · cases h
      · split at h
        · split at h
          · exact hc h
          · exact hr _ _ _ _ h
        · split at h
          · exact hc h
          · exact hr _ _ _ _ h
        · split at h
          · cases h
          · exact hr _ _ _ _ h
        · exact he _ _ _ h
  · cases h

theorem rest_op {e : Env} {v o : Obj} (h : rest e v = some o) : Step1 v.toObj o.toObj := by
  unfold rest at h
  cases hc : (Creation.reconcile { e.c with health := none } v.toObj).wrote with
  | none => rw [hc] at h; cases h
  | some x => rw [hc] at h; cases h; exact create_op hc

/-- what is known of a machine that is not being deleted, if nothing unusual happens -/
structure Sane (o : Obj) : Prop where
  known : Known o.toObj
  pid : o.st.phase = .pending ∨ o.st.phase = .running ∨ o.st.phase = .unknown → o.pid ≠ ""
  alive : o.st.phase ≠ .terminating
  again : o.st.phase = .crashLoopBackOff ∨ (o.pid = "" ∧ o.st.phase ≠ .empty) → Unfinished o

/-- where the token may still be there -/
def Open (o : Obj) : Prop := o.st.phase = .empty ∨ Unfinished o

/-- the invariant -/
def Inv (s : S) : Prop :=
  ∀ o, s.hist.head? = some o → o.deleting = false → Sane o ∧ (s.tok ≠ none → Open o)

theorem sane_enters {e : Env} {v : Obj} (h : Sane v) (he : enters e v = true) : Open v := by
  unfold enters at he
  simp only [Bool.and_eq_true, Bool.or_eq_true, decide_eq_true_eq] at he
  by_cases h0 : v.st.phase = .empty
  · exact .inl h0
  · rcases he.2 with (hp | hp) | hp
    · exact .inr (h.again (.inr ⟨hp, h0⟩))
    · exact absurd hp h0
    · exact .inr (h.again (.inl hp))

/-- the token is there after a run only where it may be there before -/
theorem tokAfter_open {e : Env} {v : Obj} {l : Luck} {tok : Option Tok} (h : Sane v) (ht : tok ≠ none → Open v)
    (hn : tokAfter e v l tok ≠ none) : Open v := by
  unfold tokAfter at hn
  split at hn
  · split at hn
    · exact absurd rfl hn
    · exact ht hn
  · split at hn
    · rename_i he; exact sane_enters h he
    · exact ht hn

theorem sane_step1 {v o : Obj} (h : Sane v) (hk : Kept v.toObj o.toObj) (hc : Changed v o) (hs : Step1 v.toObj o.toObj) : Sane o ∧ (Open v → Open o) := by
  rcases hs with hs | ⟨h1, h2, h3⟩
  · refine ⟨⟨hk.1, ?_, ?_, ?_⟩, ?_⟩
    · rw [hs]; exact fun hp => hk.2 (h.pid hp)
    · rw [hs]; exact h.alive
    · rintro hp
      have := h.again (by
        rw [hs] at hp
        rcases hp with hp | ⟨hp, hq⟩
        · exact .inl hp
        · refine .inr ⟨?_, hq⟩
          cases hv : decide (v.pid = "") with
          | true => exact of_decide_eq_true hv
          | false => exact absurd hp (hk.2 (of_decide_eq_false hv)))
      unfold Unfinished at this ⊢
      rw [hs]; exact this
    · unfold Open Unfinished; rw [hs]; exact id
  · have hu : Unfinished o := ⟨h1, h2, by rcases h3 with h | h | h <;> rw [h] <;> decide, by rcases h3 with h | h | h <;> rw [h] <;> decide⟩
    refine ⟨⟨hk.1, fun hp => hk.2 ?_, by rcases h3 with h | h | h <;> rw [h] <;> decide, fun _ => hu⟩, fun _ => .inr hu⟩
    rcases hp with hp | hp | hp
    · rcases hc with hc | ⟨hc | hc, _⟩ | hc | ⟨hc, _⟩ | ⟨hc, _⟩ | ⟨hc, _⟩
      · exact h.pid (.inl (by rw [← hc]; exact hp))
      · rw [hp] at hc; cases hc
      · rw [hp] at hc; cases hc
      · exact hc.2.2.1
      all_goals rw [hp] at hc; cases hc
    · exact absurd hp hu.2.2.1
    · exact absurd hp hu.2.2.2

/-- a health check that finds the machine joined deletes the token if the creation was not finished -/
theorem check_deletes {now : Int} {m : Health.Machine} {n : Health.NodeLookup} {c : List Conditions.Cond} {d : Bool}
    (h : Health.check now m n = .status (some .running) c d) : d = m.creating := by
  have ht : Health.timeouts now m ≠ .status (some .running) c d := by
    rcases Health.timeouts_cases now m with h | h | ⟨h, _⟩ | ⟨h, _⟩ <;> rw [h] <;> nofun
  cases n with
  | error => cases h
  | notFound =>
    unfold Health.check at h
    dsimp only at h
    split at h
    · cases h
    · exact absurd h ht
  | found n =>
    unfold Health.check at h
    dsimp only at h
    split at h
    · split at h
      · cases h; rfl
      · split at h
        · cases h
        · exact absurd h ht
    · split at h
      · cases h
      · split at h
        · cases h
        · exact absurd h ht

/-- one run from the stored object, whose request to delete the token is granted -/
theorem inv_run {e : Env} {v : Obj} {l : Luck} {tok : Option Tok} (hs : Sane v) (ht : tok ≠ none → Open v) (hp : Proper e.c) (hd : l.deleted = true)
    {o : Obj} (hr : run e v = some o) : Sane o ∧ (tokAfter e v l tok ≠ none → Open o) := by
  have hspec := run_spec hr
  have hk := hspec.2.2.2 hp hs.known
  have viaRest : rest e v = some o → Sane o ∧ (tokAfter e v l tok ≠ none → Open o) := by
    intro h
    have := sane_step1 hs hk hspec.2.2.1 (rest_op h)
    exact ⟨this.1, fun hn => this.2 (tokAfter_open hs ht hn)⟩
  unfold run at hr
  split at hr
  · rename_i hg
    have hnode : v.node ≠ none := fun h0 => hg.2.1 (by rw [h0]; rfl)
    have hpid : v.pid ≠ "" := (hs.known hnode).1
    split at hr
    · cases hr
    · rename_i p conds d hc
      split at hr
      · cases hr
        cases p with
        | none =>
          have := sane_step1 (o := healthWrite e v none conds) hs hk hspec.2.2.1 (.inl rfl)
          exact ⟨this.1, fun hn => this.2 (tokAfter_open hs ht hn)⟩
        | some p =>
          rcases (check_spec e.c.now (asHealth v) e.node).1 p conds d hc with ⟨rfl, hm⟩ | ⟨rfl, hm⟩ | ⟨rfl, hm⟩
          · refine ⟨⟨hk.1, fun _ => hpid, ?_, ?_⟩, fun hn => ?_⟩
            · show Phase.running ≠ _; decide
            · rintro (h | ⟨h, _⟩)
              · cases h
              · exact absurd h hpid
            · exfalso
              cases hcr : deletes e v with
              | true => unfold tokAfter at hn; rw [hcr, hd] at hn; exact hn rfl
              | false =>
                have hop := tokAfter_open hs ht hn
                have hdel : d = false := by
                  unfold deletes at hcr
                  rw [decide_eq_true hg, hc] at hcr
                  exact hcr
                have hcre : (asHealth v).creating = false := by
                  rw [← hdel]
                  exact (check_deletes hc).symm
                rcases hop with h | h
                · exact hg.2.2 h
                · unfold asHealth at hcre
                  dsimp only at hcre
                  rw [h.1] at hcre
                  simp [h.2.1] at hcre
          · have hv := ofHealth_phase hm
            refine ⟨⟨hk.1, fun _ => hpid, ?_, ?_⟩, fun hn => ?_⟩
            · show Phase.unknown ≠ _; decide
            · rintro (h | ⟨h, _⟩)
              · cases h
              · exact absurd h hpid
            · exfalso
              rcases tokAfter_open hs ht hn with h | h
              · exact hg.2.2 h
              · exact h.2.2.1 hv
          · refine ⟨⟨hk.1, ?_, ?_, ?_⟩, fun hn => ?_⟩
            · rintro (h | h | h) <;> cases h
            · show Phase.failed ≠ _; decide
            · rintro (h | ⟨h, _⟩)
              · cases h
              · exact absurd h hpid
            · rcases tokAfter_open hs ht hn with h | h
              · exact absurd h hg.2.2
              · exact .inr ⟨h.1, by show "Failed" ≠ "Successful"; decide, by show Phase.failed ≠ _; decide, by show Phase.failed ≠ _; decide⟩
      · cases hr
    · rename_i hc
      split at hr
      · cases hr
        have hv := ofHealth_unknown ((check_spec e.c.now (asHealth v) e.node).2 hc)
        refine ⟨⟨hk.1, ?_, ?_, ?_⟩, fun hn => ?_⟩
        · rintro (h | h | h) <;> cases h
        · show Phase.failed ≠ _; decide
        · rintro (h | ⟨h, _⟩)
          · cases h
          · exact absurd h hpid
        · exfalso
          rcases tokAfter_open hs ht hn with h | h
          · exact hg.2.2 h
          · exact h.2.2.2 hv
      · cases hr
    · split at hr
      · cases hr
      · exact viaRest hr
    · split at hr
      · cases hr
      · exact viaRest hr
  · exact viaRest hr

theorem inv_reach {s : S} (h : Reach {} s) : Inv s := by
  induction h with
  | new now hn =>
    rintro x hx hd
    cases hx
    obtain ⟨hst, _, hnode, hpid, _⟩ := hn
    refine ⟨⟨fun h => absurd hnode h, ?_, ?_, ?_⟩, fun h => absurd rfl h⟩
    · rw [hst]; rintro (h | h | h) <;> cases h
    · rw [hst]; decide
    · rw [hst]; rintro (h | ⟨_, h⟩)
      · cases h
      · exact absurd rfl h
  | @step s s' _ hs ih =>
    cases hs with
    | run e v l hn hv hst hdel hpr =>
      intro o ho hd
      have hhead := hst (.inl rfl)
      have ho : ((if l.lands then (Lifecycle.run e v).toList else []) ++ s.hist).head? = some o := ho
      have same : s.hist.head? = some o → Sane o ∧ ((s.run e v l).tok ≠ none → Open o) := by
        intro h
        rw [hhead] at h
        cases h
        obtain ⟨h1, h2⟩ := ih v hhead hd
        exact ⟨h1, fun hn => tokAfter_open h1 h2 hn⟩
      split at ho
      · cases hr : Lifecycle.run e v with
        | none => rw [hr] at ho; exact same ho
        | some x =>
          rw [hr] at ho
          cases ho
          obtain ⟨h1, h2⟩ := ih v hhead (run_spec hr).1
          exact inv_run h1 h2 (hpr rfl) (hdel rfl) hr
      · exact same ho
    | @write cur new old hh hf =>
      intro o ho hd
      cases ho
      cases hf with
      | dying hc hnw => rw [hd] at hnw; cases hnw
      | delete => cases hd
      | reset now hu =>
        obtain ⟨h1, h2⟩ := ih cur (by rw [hh]; rfl) hd
        refine ⟨⟨h1.known, fun _ => h1.pid (.inr (.inr hu)), by show Phase.running ≠ _; decide, ?_⟩, fun hn => ?_⟩
        · rintro (h | ⟨h, _⟩)
          · cases h
          · exact absurd h (h1.pid (.inr (.inr hu)))
        · exfalso
          rcases h2 hn with h | h
          · rw [hu] at h; cases h
          · exact h.2.2.2 hu
      | edit hst hdl hcr hno hpi hpri =>
        obtain ⟨h1, h2⟩ := ih cur (by rw [hh]; rfl) (hdl.symm.trans hd)
        refine ⟨⟨?_, ?_, ?_, ?_⟩, ?_⟩
        · unfold Known; rw [hno, hpi, hpri]; exact h1.known
        · rw [hst, hpi]; exact h1.pid
        · rw [hst]; exact h1.alive
        · unfold Unfinished; rw [hst, hpi]; exact h1.again
        · unfold Open Unfinished; rw [hst]; exact h2
      | wild hw => cases hw
    | wait t ht => exact ih
    | clean => exact fun o ho hd => ⟨(ih o ho hd).1, fun h => absurd rfl h⟩

/-- C122, as far as it is true: if runs start from the stored object and the requests to delete tokens are granted, a machine that has joined — it is running, or was and is now unknown — has
no token, whichever requests to the API server and the provider fail. -/
theorem C122_joined_partial (s : S) (h : Reach {} s) (o : Obj) (ho : s.hist.head? = some o) (hd : o.deleting = false)
    (hp : o.st.phase = .running ∨ o.st.phase = .unknown) : s.tok = none := by
  obtain ⟨_, h2⟩ := inv_reach h o ho hd
  cases ht : s.tok with
  | none => rfl
  | some t =>
    exfalso
    rcases h2 (by rw [ht]; nofun) with h | h
    · rcases hp with hp | hp <;> rw [hp] at h <;> cases h
    · rcases hp with hp | hp
      · exact h.2.2.1 hp
      · exact h.2.2.2 hp

/-- The writers of `Lifecycle` are those here. -/
theorem life_covered {cur new : Obj} {old : List Obj} (h : Lifecycle.Step {} (cur :: old) (new :: cur :: old)) :
    (∃ e, Lifecycle.run e cur = some new ∧ Proper e.c) ∨ Foreign {} cur new := by
  cases h with
  | machine e hr hp => exact .inl ⟨e, hr, hp rfl⟩
  | terminate e t t' wr hd => exact .inr (.dying (hd.resolve_right nofun) (hd.resolve_right nofun))
  | termLabel n hd => exact .inr (.dying (hd.resolve_right nofun) (hd.resolve_right nofun))
  | delete => exact .inr .delete
  | announce now hd => exact .inr (.dying (hd.resolve_right nofun) (hd.resolve_right nofun))
  | reset v now hv hu ho => exact .inr (.reset now (ho.resolve_left nofun))
  | edit h1 h2 h3 h4 => exact .inr (.edit h1 h2 h3 (h4 rfl).1 (h4 rfl).2.1 (h4 rfl).2.2)

/-! ### Where it fails -/

/-- successive runs, each from the stored object -/
def go : List (Env × Luck) → S → S
  | [], s => s
  | (e, l) :: r, s => match s.hist with
    | v :: _ => go r (s.run e v l)
    | [] => s

/-- the times do not go back -/
def ordered : Int → List (Env × Luck) → Bool
  | _, [] => true
  | t, (e, _) :: r => decide (t ≤ e.c.now) && ordered e.c.now r

theorem go_reach {opts : Opts} : ∀ {es : List (Env × Luck)} {s : S}, Reach opts s → ordered s.now es = true → es.all (fun x => properB x.1.c) = true →
    (opts.refused = true ∨ es.all (fun x => x.2.deleted) = true) → Reach opts (go es s)
  | [], _, h, _, _, _ => h
  | (e, l) :: r, s, h, ho, hp, hd => by
    unfold ordered at ho
    rw [Bool.and_eq_true, decide_eq_true_eq] at ho
    rw [List.all_cons, Bool.and_eq_true] at hp
    rw [List.all_cons, Bool.and_eq_true] at hd
    unfold go
    split
    · rename_i v old hh
      refine go_reach (.step h (.run e v l ho.1 (by rw [hh]; exact List.mem_cons_self ..) (fun _ => by rw [hh]; rfl) (fun hr => ?_) (fun _ => proper_of hp.1)))
        ho.2 hp.2 (hd.imp_right And.right)
      rcases hd with hd | hd
      · rw [hd] at hr; cases hr
      · exact hd.1
    · exact h

theorem go_mem {v : Obj} : ∀ {es : List (Env × Luck)} {s : S}, v ∈ s.hist → v ∈ (go es s).hist
  | [], _, h => h
  | (e, l) :: r, s, h => by
    unfold go
    split
    · exact go_mem (List.mem_append_right _ h)
    · exact h

/-- a new machine -/
def fresh : S := { hist := [({} : Obj)] }

theorem fresh_reach (opts : Opts) : Reach opts fresh := .new 0 ⟨rfl, rfl, rfl, rfl, rfl⟩

/-- the machine joins -/
def joins : List (Env × Luck) := running.map fun e => (e, { random := "secret" })

/-- the VM gets a token, which is gone when the machine runs -/
example : (go (joins.take 3) fresh).tok = some ⟨"secret", 21 * minute⟩ ∧ (go joins fresh).given = [(1 * minute, ⟨"secret", 21 * minute⟩)] ∧
    (go joins fresh).tok = none ∧ (go joins fresh).hist.head?.map (fun o => o.st.phase) = some .running ∧ Reach {} (go joins fresh) :=
  ⟨by decide +kernel, by decide +kernel, by decide +kernel, by decide +kernel, go_reach (fresh_reach _) (by decide +kernel) (by decide +kernel) (.inr (by decide +kernel))⟩

/-- and no attempt remains that could have left one: the hypothesis of `C122_no_lasting_token` holds later -/
example : ∀ a ∈ ({ go joins fresh with now := 22 * minute } : S).attempts, a.1 + a.2 ≤ 22 * minute := by decide +kernel

/-- the first attempt calls `CreateMachine` without a token being there -/
example : calls { c := { now := 1 * minute, status := noVM, create := .ok "n" "p" } } { finalizer := true } = true := by decide +kernel

/-- the provider has no capacity for twenty minutes -/
def scarce (at2 : Int) : List (Env × Luck) := [(start, {}),
  ({ c := { now := 1 * minute, status := noVM, create := broken } }, { random := "secret" }),
  ({ c := { now := 19 * minute, status := noVM, create := broken } }, { random := "other" }),
  ({ c := { now := at2, status := noVM, create := .ok "n" "p" } }, { random := "third" })]

/-- C122 fails: attempts repeated for longer than the timeout use the first token; the VM that is created at last gets a token that has expired already (the cluster has not removed it yet). -/
theorem C122_expired_token_false : ¬ ∀ s, Reach {} s → ∀ p ∈ s.given, Valid p.2 p.1 := by
  intro h
  exact absurd (h (go (scarce (22 * minute)) fresh) (go_reach (fresh_reach _) (by decide +kernel) (by decide +kernel) (.inr (by decide +kernel)))
    (22 * minute, ⟨"secret", 21 * minute⟩) (by decide +kernel)) (by unfold Valid; decide +kernel)

/-- C122 fails also if the cluster removes expired tokens at once: the VM is created in the last second of its token, and the machine is then expected to join for twenty minutes during which
the token is not accepted. -/
theorem C122_waits_without_token_false : ¬ ∀ s, Reach {} s → ∀ o, s.hist.head? = some o → o.deleting = false → o.st.phase = .pending →
    s.now - o.st.phaseTime ≤ o.creationTimeout → ∀ p ∈ s.given, Valid p.2 p.1 → ∃ q ∈ s.given, Valid q.2 s.now := by
  intro h
  let s := go (scarce (21 * minute - 1) ++ ([({ c := { now := 21 * minute, status := .ok "n" "p" } }, {})] : List (Env × Luck))) fresh
  have hs : Reach {} s := go_reach (fresh_reach _) (by decide +kernel) (by decide +kernel) (.inr (by decide +kernel))
  have hw : Reach {} { s with now := 22 * minute } := .step hs (.wait _ (by decide +kernel))
  have hsome : s.hist.head?.isSome = true := by decide +kernel
  have e1 : s.hist.head?.map (fun o => (o.deleting, o.st.phase, o.st.phaseTime, o.creationTimeout)) = some (false, .pending, 21 * minute, 20 * minute) := by
    decide +kernel
  have hall : ∀ q ∈ s.given, ¬ (22 * minute < q.2.expires) := by decide +kernel
  have hmem : (21 * minute - 1, ⟨"secret", 21 * minute⟩) ∈ s.given := by decide +kernel
  clear_value s
  cases hh : s.hist.head? with
  | none => rw [hh] at hsome; cases hsome
  | some o =>
    rw [hh] at e1
    simp only [Option.map_some, Option.some.injEq, Prod.mk.injEq] at e1
    obtain ⟨d1, d2, d3, d4⟩ := e1
    obtain ⟨q, hq, hv⟩ := h _ hw o hh d1 d2 (by rw [d3, d4]; show 22 * minute - 21 * minute ≤ 20 * minute; decide) _ hmem (by unfold Valid; decide +kernel)
    exact hall q hq hv

/-- C122 fails if a request to delete a token is refused: nobody asks again. -/
theorem C122_refused_false : ∃ s t o, Reach { refused := true } s ∧ s.tok = some t ∧ Valid t s.now ∧ s.hist.head? = some o ∧ o.deleting = false ∧
    o.st.phase = .running := by
  let es := joins.map fun x => (x.1, { x.2 with deleted := false })
  have hs : Reach { refused := true } (go es fresh) := go_reach (fresh_reach _) (by decide +kernel) (by decide +kernel) (.inl rfl)
  cases hh : (go es fresh).hist.head? with
  | none =>
    have : (go es fresh).hist.head?.isSome = true := by decide +kernel
    rw [hh] at this; cases this
  | some o =>
    have e1 : (go es fresh).hist.head?.map (fun o => (o.deleting, o.st.phase)) = some (false, .running) := by decide +kernel
    rw [hh] at e1
    simp only [Option.map_some, Option.some.injEq, Prod.mk.injEq] at e1
    exact ⟨_, ⟨"secret", 21 * minute⟩, o, hs, by decide +kernel, by unfold Valid; decide +kernel, hh, e1⟩

/-- C122 fails with an outdated cache: a run that sees the machine as it was before its creation makes a token for a machine that is running. -/
theorem C122_stale_false : ∃ s t o, Reach { stale := true } s ∧ s.tok = some t ∧ Valid t s.now ∧ s.hist.head? = some o ∧ o.deleting = false ∧
    o.st.phase = .running := by
  have hs : Reach { stale := true } (go joins fresh) := go_reach (fresh_reach _) (by decide +kernel) (by decide +kernel) (.inr (by decide +kernel))
  let v : Obj := { finalizer := true }
  let e : Env := { c := { now := 4 * minute, status := .ok "n" "p" } }
  have hv : v ∈ (go joins fresh).hist := by
    have hm : v ∈ (fresh.run start {} { random := "secret" }).hist := List.mem_cons_self ..
    rw [show joins = (start, { random := "secret" }) :: joins.drop 1 from rfl]
    unfold go
    exact go_mem hm
  have ht : ((go joins fresh).run e v { random := "again", lands := false }).tok = some ⟨"again", 24 * minute⟩ := by decide +kernel
  have hn : Valid ⟨"again", 24 * minute⟩ ((go joins fresh).run e v { random := "again", lands := false }).now := by unfold Valid; decide +kernel
  have h2 : Reach { stale := true } ((go joins fresh).run e v { random := "again", lands := false }) :=
    .step hs (.run e v _ (by decide +kernel) hv (by rintro (h | h) <;> cases h) (fun _ => rfl) (fun _ => proper_of (by decide +kernel)))
  have hsome : (go joins fresh).hist.head?.isSome = true := by decide +kernel
  have e1 : (go joins fresh).hist.head?.map (fun o => (o.deleting, o.st.phase)) = some (false, .running) := by decide +kernel
  generalize go joins fresh = s at h2 ht hn hsome e1
  cases hh : s.hist.head? with
  | none => rw [hh] at hsome; cases hsome
  | some o =>
    rw [hh] at e1
    simp only [Option.map_some, Option.some.injEq, Prod.mk.injEq] at e1
    exact ⟨_, ⟨"again", 24 * minute⟩, o, h2, ht, hn, hh, e1⟩

/-- C122 fails for a machine that is deleted before it has joined: its token stays, and is accepted, when the machine and its VM are gone. -/
theorem C122_deleted_false : ∃ s t o, Reach {} s ∧ s.tok = some t ∧ Valid t s.now ∧ s.hist.head? = some o ∧ o.deleting = true ∧ o.finalizer = false ∧
    s.given.length = 1 := by
  let s := go (joins.take 3) fresh
  have hs : Reach {} s := go_reach (fresh_reach _) (by decide +kernel) (by decide +kernel) (.inr (by decide +kernel))
  have ht : s.tok = some ⟨"secret", 21 * minute⟩ := by decide +kernel
  have hn : Valid ⟨"secret", 21 * minute⟩ s.now := by unfold Valid; decide +kernel
  have hg : s.given.length = 1 := by decide +kernel
  have hne : s.hist.isEmpty = false := by decide +kernel
  clear_value s
  cases hh : s.hist with
  | nil =>
    rw [hh] at hne; cases hne
  | cons o old =>
    have h1 := Reach.step hs (.write hh .delete)
    have h2 := Reach.step h1 (.write (new := { o with deleting := true, finalizer := false }) rfl (.dying rfl rfl))
    exact ⟨_, ⟨"secret", 21 * minute⟩, { o with deleting := true, finalizer := false }, h2, ht, hn, rfl, rfl, rfl, hg⟩

/-- the reset by the safety controller is the same in the model of several machines (`Rough`) -/
theorem reset_agrees (opts : Opts) (now : Int) (cur : Obj) (h : cur.st.phase = .unknown) : Foreign opts cur { cur with st := Fleet.resetStatus now cur.st } := .reset now h

end MCM.Tokens
