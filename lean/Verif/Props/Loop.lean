import Verif.Model.Loop
import Verif.Props.Worker
/-!
C104: no object is forgotten: as long as it exists, a further run is due.
-/
namespace MCM.Loop
open MCM MCM.Worker
open MCM.SetRun (Ending)

/-! ## Specification -/

/-- a run is going on or will come: the key is being worked on, marked, or waiting for its time -/
def Kept (s : S) (k : String) : Prop := k ∈ s.q.processing ∨ k ∈ s.q.dirty ∨ k ∈ s.q.delayed

/-- what can be reached from an empty queue -/
def Reachable (may : String → Ending → Prop) (s : S) : Prop := Steps may {} s

/-- at some time the last sixteen runs for the key, or more, had all failed -/
def GaveUp (s : S) (k : String) : Prop := ∃ l, l <:+ s.q.log ∧ 16 ≤ streak k l

/-! ## Invariants -/

theorem step_worker {may : String → Ending → Prop} {s t : S} (h : Step may s t) : Worker.Step true s.q t.q := by
  cases h with
  | add k => exact .add k
  | later k => exact .addAfter k
  | fire a b k he => exact .fire a b k he
  | get k rest he => exact .get k rest he
  | ask k _ => exact .addAfter k
  | finish k e hp _ _ => exact .finish k e.ok hp

theorem reach_worker {may : String → Ending → Prop} {s : S} (h : Reachable may s) : Worker.Reach true s.q := by
  unfold Reachable at h
  induction h with
  | refl => exact .init
  | tail _ hs ih => exact .step ih (step_worker hs)

theorem add_dirty (q : Q) (k x : String) (h : x ∈ q.dirty) : x ∈ (q.add k).dirty := by
  unfold Q.add
  repeat' split
  all_goals first | exact h | exact List.mem_cons_of_mem _ h

theorem add_self (q : Q) (k : String) : k ∈ (q.add k).dirty := by
  unfold Q.add
  split
  · assumption
  · split <;> exact List.mem_cons_self

theorem add_rest (q : Q) (k : String) : (q.add k).delayed = q.delayed ∧ (q.add k).processing = q.processing ∧ (q.add k).log = q.log := by
  unfold Q.add
  repeat' split
  all_goals exact ⟨rfl, rfl, rfl⟩

theorem addAfter_mem (q : Q) (k x : String) (h : x ∈ q.delayed) : x ∈ (q.addAfter k).delayed := by
  show x ∈ if k ∈ q.delayed then q.delayed else k :: q.delayed
  split
  · exact h
  · exact List.mem_cons_of_mem _ h

theorem done_rest (q : Q) (k : String) : (q.done k).dirty = q.dirty ∧ (q.done k).delayed = q.delayed ∧ (q.done k).log = q.log
    ∧ (q.done k).processing = q.processing.filter (· ≠ k) := by
  unfold Q.done
  dsimp only
  split <;> exact ⟨rfl, rfl, rfl, rfl⟩

theorem mid_delayed (q : Q) (k x : String) (ok : Bool) (h : x ∈ q.delayed) : x ∈ (mid q true k ok).delayed := by
  unfold mid
  dsimp only
  repeat' split
  all_goals first | exact h | exact addAfter_mem _ _ _ h | (simp at *)

theorem finish_dirty (q : Q) (k x : String) (ok : Bool) (h : x ∈ q.dirty) : x ∈ (q.finish true k ok).dirty := by
  rw [finish_eq, (done_rest _ k).1, (mid_sets q true k ok).2.1]; exact h

theorem finish_delayed (q : Q) (k x : String) (ok : Bool) (h : x ∈ q.delayed) : x ∈ (q.finish true k ok).delayed := by
  rw [finish_eq, (done_rest _ k).2.1]; exact mid_delayed q k x ok h

theorem finish_processing (q : Q) (k x : String) (ok : Bool) (h : x ∈ q.processing) (hne : x ≠ k) : x ∈ (q.finish true k ok).processing := by
  rw [finish_eq, (done_rest _ k).2.2.2, (mid_sets q true k ok).2.2]
  simp [h, hne]

/-- a run that asked for another one has it waiting, or marked if its time came before the end of the run -/
def Asked (s : S) : Prop := ∀ k ∈ s.asked, k ∈ s.q.processing → k ∈ s.q.dirty ∨ k ∈ s.q.delayed

theorem asked_step {may : String → Ending → Prop} {s t : S} (hi : Asked s) (h : Step may s t) : Asked t := by
  cases h with
  | add k =>
    intro x hx hp
    have hp : x ∈ (s.q.add k).processing := hp
    rw [(add_rest _ k).2.1] at hp
    rcases hi x hx hp with h | h
    · exact .inl (add_dirty _ k x h)
    · refine .inr ?_
      show x ∈ (s.q.add k).delayed
      rw [(add_rest _ k).1]; exact h
  | later k =>
    intro x hx hp
    rcases hi x hx hp with h | h
    · exact .inl h
    · exact .inr (addAfter_mem _ k x h)
  | fire a b k he =>
    intro x hx hp
    have hp : x ∈ ({ s.q with delayed := a ++ b }.add k).processing := hp
    rw [(add_rest _ k).2.1] at hp
    rcases hi x hx hp with h | h
    · exact .inl (add_dirty _ k x h)
    · rw [he] at h
      by_cases hxk : x = k
      · subst hxk; exact .inl (add_self _ x)
      · refine .inr ?_
        show x ∈ ({ s.q with delayed := a ++ b }.add k).delayed
        rw [(add_rest _ k).1]
        show x ∈ a ++ b
        simpa [hxk] using h
  | get k rest he =>
    intro x hx hp
    obtain ⟨hx1, hx2⟩ : x ∈ s.asked ∧ x ≠ k := by simpa using hx
    rcases List.mem_cons.1 hp with e | hp
    · exact absurd e hx2
    · rcases hi x hx1 hp with h | h
      · exact .inl (by
          show x ∈ s.q.dirty.filter (· ≠ k)
          simp [h, hx2])
      · exact .inr h
  | ask k hk =>
    intro x hx hp
    rcases List.mem_cons.1 hx with rfl | hx
    · exact .inr (mem_addAfter _ x)
    · rcases hi x hx hp with h | h
      · exact .inl h
      · exact .inr (addAfter_mem _ k x h)
  | finish k e hk hm ha =>
    intro x hx hp
    have hp : x ∈ (s.q.finish true k e.ok).processing := hp
    rw [finish_eq, (done_rest _ k).2.2.2, (mid_sets s.q true k e.ok).2.2] at hp
    have hp : x ∈ s.q.processing := (List.mem_filter.1 hp).1
    rcases hi x hx hp with h | h
    · exact .inl (finish_dirty _ k x _ h)
    · exact .inr (finish_delayed _ k x _ h)

theorem reach_asked {may : String → Ending → Prop} {s : S} (h : Reachable may s) : Asked s := by
  unfold Reachable at h
  induction h with
  | refl => intro k hk; exact (nomatch hk)
  | tail _ hs ih => exact asked_step ih hs

/-- **C104**: the only way in which a key is forgotten: a run of it ended without asking for another one, either without an error (the object is gone, or is not
served by this queue) or after at least sixteen failures in a row. -/
theorem C104_forgotten_only (may : String → Ending → Prop) (s t : S) (hr : Reachable may s) (h : Step may s t) (k : String) (hk : Kept s k)
    (hn : ¬ Kept t k) : ∃ e, may k e ∧ e.again = false ∧ (e.ok = true ∨ 16 ≤ streak k t.q.log) := by
  cases h with
  | add x =>
    refine absurd ?_ hn
    rcases hk with h | h | h
    · left; show k ∈ (s.q.add x).processing; rw [(add_rest _ x).2.1]; exact h
    · exact .inr (.inl (add_dirty _ x k h))
    · right; right; show k ∈ (s.q.add x).delayed; rw [(add_rest _ x).1]; exact h
  | later x =>
    refine absurd ?_ hn
    rcases hk with h | h | h
    · exact .inl h
    · exact .inr (.inl h)
    · exact .inr (.inr (addAfter_mem _ x k h))
  | fire a b x he =>
    refine absurd ?_ hn
    rcases hk with h | h | h
    · left; show k ∈ ({ s.q with delayed := a ++ b }.add x).processing; rw [(add_rest _ x).2.1]; exact h
    · exact .inr (.inl (add_dirty _ x k h))
    · rw [he] at h
      by_cases hxk : k = x
      · subst hxk; exact .inr (.inl (add_self _ k))
      · right; right
        show k ∈ ({ s.q with delayed := a ++ b }.add x).delayed
        rw [(add_rest _ x).1]
        show k ∈ a ++ b
        simpa [hxk] using h
  | get x rest he =>
    refine absurd ?_ hn
    by_cases hxk : k = x
    · subst hxk; exact .inl List.mem_cons_self
    · rcases hk with h | h | h
      · exact .inl (List.mem_cons_of_mem _ h)
      · right; left
        show k ∈ s.q.dirty.filter (· ≠ x)
        simp [h, hxk]
      · exact .inr (.inr h)
  | ask x hx =>
    refine absurd ?_ hn
    rcases hk with h | h | h
    · exact .inl h
    · exact .inr (.inl h)
    · exact .inr (.inr (addAfter_mem _ x k h))
  | finish x e hx hm ha =>
    have hlate : ∀ y, y ∈ s.q.dirty ∨ y ∈ s.q.delayed → Kept { s with q := s.q.finish true x e.ok } y := fun y hy => by
      rcases hy with h | h
      · exact .inr (.inl (finish_dirty _ x y _ h))
      · exact .inr (.inr (finish_delayed _ x y _ h))
    by_cases hxk : k = x
    · subst hxk
      refine ⟨e, hm, ?_, ?_⟩
      · cases hag : e.again with
        | false => rfl
        | true => exact absurd (hlate k (reach_asked hr k (ha hag) hx)) hn
      · cases hok : e.ok with
        | true => exact .inl rfl
        | false =>
          right
          rcases C47_retried s.q (reach_worker hr) k with hp | h16
          · exact absurd (.inr (by rw [hok]; exact hp)) hn
          · exact h16
    · refine absurd ?_ hn
      rcases hk with h | h
      · exact .inl (finish_processing _ x k _ h hxk)
      · exact hlate k h

theorem Steps.trans {may : String → Ending → Prop} {s t u : S} (h : Steps may s t) (h' : Steps may t u) : Steps may s u := by
  induction h' with
  | refl => exact h
  | tail _ hs ih => exact .tail ih hs

theorem log_suffix {may : String → Ending → Prop} {s t : S} (h : Step may s t) : s.q.log <:+ t.q.log := by
  cases h with
  | add x => show s.q.log <:+ (s.q.add x).log; rw [(add_rest _ x).2.2]; exact List.suffix_refl _
  | later x => exact List.suffix_refl _
  | fire a b x he => show s.q.log <:+ ({ s.q with delayed := a ++ b }.add x).log; rw [(add_rest _ x).2.2]; exact List.suffix_refl _
  | get x rest he => exact List.suffix_refl _
  | ask x hx => exact List.suffix_refl _
  | finish x e hx hm ha =>
    have : (s.q.finish true x e.ok).log = (x, e.ok) :: s.q.log := by
      rw [finish_eq, (done_rest _ x).2.2.1]
      unfold mid
      dsimp only
      repeat' split
      all_goals rfl
    show s.q.log <:+ (s.q.finish true x e.ok).log
    rw [this]
    exact List.suffix_cons _ _

/-- **C104**: a key whose runs always ask for another one is never forgotten, whatever fails and whatever the interleaving. -/
theorem C104_never_forgotten (may : String → Ending → Prop) (k : String) (hm : ∀ e, may k e → e.again = true) (s t : S) (hr : Reachable may s)
    (hk : Kept s k) (h : Steps may s t) : Kept t k := by
  induction h with
  | refl => exact hk
  | tail h hs ih =>
    refine Classical.byContradiction fun hn => ?_
    obtain ⟨e, he, ha, _⟩ := C104_forgotten_only may _ _ (hr.trans h) hs k ih hn
    rw [hm e he] at ha
    exact (nomatch ha)

/-- **C104**: a key whose runs ask for another one unless they fail is never forgotten before sixteen runs in a row have failed. -/
theorem C104_retried_until (may : String → Ending → Prop) (k : String) (hm : ∀ e, may k e → e.again = true ∨ e.ok = false) (s t : S)
    (hr : Reachable may s) (hk : Kept s k) (h : Steps may s t) : Kept t k ∨ GaveUp t k := by
  induction h with
  | refl => exact .inl hk
  | @tail u v h hs ih =>
    rcases ih with ih | ⟨l, hl, h16⟩
    · by_cases hn : Kept v k
      · exact .inl hn
      · obtain ⟨e, he, ha, hb⟩ := C104_forgotten_only may _ _ (hr.trans h) hs k ih hn
        rcases hb with hb | hb
        · rcases hm e he with h1 | h1
          · rw [h1] at ha; exact (nomatch ha)
          · rw [h1] at hb; exact (nomatch hb)
        · exact .inr ⟨_, List.suffix_refl _, hb⟩
    · exact .inr ⟨l, hl.trans (log_suffix hs), h16⟩

/-! ## The controllers -/

/-- **C104**: a machine that is in the cache and not to be deleted stays under observation. -/
theorem C104_machine (may : String → Ending → Prop) (k : String) (hm : ∀ e, may k e → e = machine .found false) (s t : S) (hr : Reachable may s)
    (hk : Kept s k) (h : Steps may s t) : Kept t k :=
  C104_never_forgotten may k (fun e he => by rw [hm e he]; rfl) s t hr hk h

/-- **C104**: the termination of a machine is never given up while the machine is in the cache, whatever fails. -/
theorem C104_termination (may : String → Ending → Prop) (k : String) (hm : ∀ e, may k e → ∃ err, e = termination .found err) (s t : S)
    (hr : Reachable may s) (hk : Kept s k) (h : Steps may s t) : Kept t k :=
  C104_never_forgotten may k (fun e he => by obtain ⟨err, he⟩ := hm e he; rw [he]; rfl) s t hr hk h

/-- **C104**: even if reading it can fail, before sixteen runs in a row have failed. -/
theorem C104_termination_unread (may : String → Ending → Prop) (k : String)
    (hm : ∀ e, may k e → ∃ f err, f ≠ .notFound ∧ e = termination f err) (s t : S) (hr : Reachable may s) (hk : Kept s k) (h : Steps may s t) :
    Kept t k ∨ GaveUp t k :=
  C104_retried_until may k (fun e he => by
    obtain ⟨f, err, hf, he⟩ := hm e he
    subst he
    cases f with
    | notFound => exact absurd rfl hf
    | failed => exact .inr rfl
    | found => exact .inl rfl) s t hr hk h

/-- **C104**: machines, classes and secrets likewise. -/
theorem C104_others_unread (may : String → Ending → Prop) (k : String)
    (hm : ∀ e, may k e → ∃ f, f ≠ .notFound ∧ (e = machine f false ∨ e = machineClass f ∨ ∃ err, e = secret false f err)) (s t : S) (hr : Reachable may s)
    (hk : Kept s k) (h : Steps may s t) : Kept t k ∨ GaveUp t k :=
  C104_retried_until may k (fun e he => by
    obtain ⟨f, hf, he⟩ := hm e he
    cases f with
    | notFound => exact absurd rfl hf
    | failed => rcases he with rfl | rfl | ⟨err, rfl⟩ <;> exact .inr rfl
    | found => rcases he with rfl | rfl | ⟨err, rfl⟩ <;> exact .inl rfl) s t hr hk h

/-- **C104**: a machine class in the cache stays under observation. -/
theorem C104_class (may : String → Ending → Prop) (k : String) (hm : ∀ e, may k e → e = machineClass .found) (s t : S) (hr : Reachable may s)
    (hk : Kept s k) (h : Steps may s t) : Kept t k :=
  C104_never_forgotten may k (fun e he => by rw [hm e he]; rfl) s t hr hk h

/-- **C104**: so does a secret in the namespace of the controller. -/
theorem C104_secret (may : String → Ending → Prop) (k : String) (hm : ∀ e, may k e → ∃ err, e = secret false .found err) (s t : S) (hr : Reachable may s)
    (hk : Kept s k) (h : Steps may s t) : Kept t k :=
  C104_never_forgotten may k (fun e he => by obtain ⟨err, he⟩ := hm e he; rw [he]; rfl) s t hr hk h

/-- **C104**: a valid deployment that can be read stays under observation, whatever else fails. -/
theorem C104_deployment (may : String → Ending → Prop) (k : String) (hm : ∀ e, may k e → ∃ err, e = deployment .found true err) (s t : S)
    (hr : Reachable may s) (hk : Kept s k) (h : Steps may s t) : Kept t k :=
  C104_never_forgotten may k (fun e he => by obtain ⟨err, he⟩ := hm e he; rw [he]; rfl) s t hr hk h

/-- **C104**: if reading can fail, a valid deployment is kept until sixteen runs in a row have failed. -/
theorem C104_deployment_unread (may : String → Ending → Prop) (k : String)
    (hm : ∀ e, may k e → ∃ f err, f ≠ .notFound ∧ e = deployment f true err) (s t : S) (hr : Reachable may s) (hk : Kept s k) (h : Steps may s t) :
    Kept t k ∨ GaveUp t k :=
  C104_retried_until may k (fun e he => by
    obtain ⟨f, err, hf, he⟩ := hm e he
    subst he
    cases f with
    | notFound => exact absurd rfl hf
    | failed => exact .inr rfl
    | found => exact .inl rfl) s t hr hk h

/-- a run for a valid machine set with a usable selector either asks for another one or fails -/
theorem set_ending (e : SetRun.Env) (o : SetRun.SetObj) (cache : List SetRun.Mach) (hv : e.valid = true) (hs : e.selectorOk = true) :
    (SetRun.run e o cache).ending.again = true ∨ (SetRun.run e o cache).ending.ok = false := by
  unfold SetRun.run
  rw [hv, hs]
  simp only [Bool.not_true, Bool.false_eq_true, if_false]
  split
  · exact .inr rfl
  · split
    · exact .inr rfl
    · unfold SetRun.serve
      dsimp only
      split
      · exact .inr rfl
      · split
        · exact .inr rfl
        · unfold SetRun.report
          dsimp only
          split
          · split
            · exact .inl rfl
            · exact .inr rfl
          · exact .inl rfl

/-- **C104** (partial): a valid machine set is kept until sixteen runs in a row have failed. -/
theorem C104_set_partial (may : String → Ending → Prop) (k : String)
    (hm : ∀ e, may k e → ∃ env r cache, env.valid = true ∧ env.selectorOk = true ∧ r ≠ SetRun.Read.notFound ∧ e = (SetRun.reconcile env r cache).ending)
    (s t : S) (hr : Reachable may s) (hk : Kept s k) (h : Steps may s t) : Kept t k ∨ GaveUp t k :=
  C104_retried_until may k (fun e he => by
    obtain ⟨env, r, cache, hv, hs, hnf, he⟩ := hm e he
    subst he
    cases r with
    | notFound => exact absurd rfl hnf
    | failed => exact .inr rfl
    | found o => exact set_ending env o cache hv hs) s t hr hk h

/-! ## A machine set that is forgotten -/

/-- a machine with another configuration than the set's -/
def oldMachine : SetRun.Mach :=
  { name := "m", owners := [⟨"u", true⟩], stored := ⟨0, ⟨"t", "old", "c"⟩⟩, cached := ⟨0, ⟨"t", "old", "c"⟩⟩ }
/-- the set: three machines are wanted -/
def wantsThree : SetRun.SetObj := { uid := "u", replicas := 3, sel := fun _ => true, want := ⟨"t", "new", "c"⟩ }
/-- the update of the machine is refused -/
def refused : SetRun.Env := { att := fun _ _ => [{ error := true }] }

/-- the runs of the example: the set is valid, and either all calls work or the update of one machine is refused -/
def exampleMay (k : String) (e : Ending) : Prop :=
  k = "set" ∧ (e = (SetRun.reconcile {} (.found wantsThree) [oldMachine]).ending ∨ e = (SetRun.reconcile refused (.found wantsThree) [oldMachine]).ending)

/-- a worker takes the first key -/
def took (s : S) : S :=
  match s.q.queue with
  | [] => s
  | k :: rest => ⟨{ s.q with queue := rest, processing := k :: s.q.processing, dirty := s.q.dirty.filter (· ≠ k) }, s.asked.filter (· ≠ k)⟩

/-- the first timer -/
def fired (s : S) : S :=
  match s.q.delayed with
  | [] => s
  | k :: rest => { s with q := { s.q with delayed := rest }.add k }

/-- a run that fails, and the time until the next one -/
def badRun (s : S) : S := fired { took s with q := (took s).q.finish true "set" false }

/-- the set is seen, a run succeeds and asks for another one in ten minutes, the set is changed -/
def seen : S :=
  let s := took { q := ({} : Q).add "set" }
  let s : S := ⟨s.q.addAfter "set", "set" :: s.asked⟩
  let s : S := { s with q := s.q.finish true "set" true }
  { s with q := s.q.add "set" }

theorem took_steps (may : String → Ending → Prop) (s : S) : Steps may s (took s) := by
  unfold took
  split
  · exact .refl
  · rename_i k rest h
    exact .tail .refl (.get k rest h)

theorem fired_steps (may : String → Ending → Prop) (s : S) : Steps may s (fired s) := by
  unfold fired
  split
  · exact .refl
  · rename_i k rest h
    exact .tail .refl (.fire [] rest k h)

/-- the state before the end of the first run -/
def asking : S := ⟨(took { q := ({} : Q).add "set" }).q.addAfter "set", "set" :: (took { q := ({} : Q).add "set" }).asked⟩

theorem good_ending : (SetRun.reconcile {} (.found wantsThree) [oldMachine]).ending = { again := true, ok := true } := by decide +kernel

theorem seen_reachable : Reachable exampleMay seen := by
  have h1 : Steps exampleMay {} asking :=
    .tail (.trans (.tail .refl (.add "set")) (took_steps _ _)) (.ask (s := took { q := ({} : Q).add "set" }) "set" (by decide))
  have h2 : Step exampleMay asking { asking with q := asking.q.finish true "set" true } :=
    .finish (may := exampleMay) (s := asking) "set" { again := true, ok := true } (by decide) ⟨rfl, .inl good_ending.symm⟩ (fun _ => List.mem_cons_self)
  exact .tail (.tail h1 h2) (.add "set")

theorem badRun_steps (s : S) (h : "set" ∈ (took s).q.processing) : Steps exampleMay s (badRun s) := by
  refine .trans (.tail (took_steps _ s) ?_) (fired_steps _ _)
  exact .finish (may := exampleMay) (s := took s) "set" (SetRun.reconcile refused (.found wantsThree) [oldMachine]).ending h ⟨rfl, .inr rfl⟩ (fun h => (nomatch h))

/-- `n` failing runs -/
def badRuns : Nat → S
  | 0 => seen
  | n + 1 => badRun (badRuns n)

/-- **C104 is false for machine sets**: the update of one machine is refused in sixteen runs in a row – with the usual delays these take less than three minutes.
After that no run is due any more, although a run before had asked for one after ten minutes, all calls would succeed again, and the set wants two more machines. -/
theorem C104_set_forgotten_false : ∃ s, Reachable exampleMay s ∧ Kept seen "set" ∧ Steps exampleMay seen s ∧ ¬ Kept s "set"
    ∧ s.q.queue = [] ∧ s.q.delayed = [] ∧ s.q.processing = [] := by
  have hsteps : ∀ n, n ≤ 16 → Steps exampleMay seen (badRuns n) := by
    have hin : ∀ n, n < 16 → "set" ∈ (took (badRuns n)).q.processing := by decide +kernel
    intro n
    induction n with
    | zero => intro _; exact .refl
    | succ n ih => intro hn; exact (ih (by omega)).trans (badRun_steps _ (hin n (by omega)))
  have h1 := hsteps 16 (Nat.le_refl _)
  have hd : (badRuns 16).q.queue = [] ∧ (badRuns 16).q.delayed = [] ∧ (badRuns 16).q.processing = [] ∧ (badRuns 16).q.dirty = [] := by decide +kernel
  refine ⟨badRuns 16, seen_reachable.trans h1, by right; left; decide, h1, ?_, hd.1, hd.2.1, hd.2.2.1⟩
  intro hk
  rcases hk with h | h | h
  · rw [hd.2.2.1] at h; exact (nomatch h)
  · rw [hd.2.2.2] at h; exact (nomatch h)
  · rw [hd.2.1] at h; exact (nomatch h)

-- the run that succeeds creates the missing machines and asks for another one
example : (SetRun.reconcile {} (.found wantsThree) [oldMachine]).ending = { again := true, ok := true }
    ∧ (SetRun.reconcile {} (.found wantsThree) [oldMachine]).acts.contains (.create 2) = true := by decide +kernel
-- fifteen failing runs are survived
example : Kept (badRuns 15) "set" := by right; left; decide +kernel
-- the hypotheses of the theorems above are met: termination of a machine whose runs fail
example : Kept { q := ({} : Q).add "m" } "m" ∧ Reachable (fun k e => k = "m" ∧ ∃ err, e = termination .found err) { q := ({} : Q).add "m" } :=
  ⟨by right; left; decide, .tail .refl (.add "m")⟩

end MCM.Loop
