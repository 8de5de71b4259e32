import Verif.Model.Freeze
import Mathlib.Data.List.Forall2
import Mathlib.Data.List.Nodup
/-!
C21: overshooting machine sets are frozen and released with hysteresis. C56: a request to unfreeze is carried out.
-/
namespace MCM.Freeze
open MCM MCM.Rolling

/-! ### Specification -/

/-- machines counted for a set: owner references carrying its name, on machines with all labels of its template -/
def backing (v : View) (s : FSet) : Int :=
  (((v.machines.filter fun m => s.tmpl.all fun e => List.lookup e.1 m.labels == some e.2).flatMap (·.owners)).count s.name : Nat)

/-- The documented limit (options.go:93): desired + maxSurge + safetyUp for the sets of a deployment,
2 * desired + safetyUp for a set on its own. -/
inductive Limit (o : Opts) (v : View) (s : FSet) : Int → Prop
  | alone : depOf v s = none → Limit o v s (2 * s.replicas + o.up)
  | owned (d : FDep) (surge : Option IntOrStr) (g : Int) : depOf v s = some d → d.rolling = some surge →
      scaledValue surge d.replicas true = some g → Limit o v s (d.replicas + g + o.up)

/-- the set called `n` is seen at or above its limit -/
def Over (o : Opts) (v : View) (n : String) : Prop :=
  ∃ s ∈ v.sets, s.name = n ∧ ∃ h, Limit o v s h ∧ backing v s ≥ h

/-- the set called `n` is seen at or below its limit minus the margin -/
def Under (o : Opts) (v : View) (n : String) : Prop :=
  ∃ s ∈ v.sets, s.name = n ∧ ∃ h, Limit o v s h ∧ backing v s ≤ h - o.down

/-- the set called `n` is seen carrying the unfreeze annotation -/
def Asked (v : View) (n : String) : Prop := ∃ s ∈ v.sets, s.name = n ∧ s.ann = true

/-- `s'` is the same object as `s` later on: it got frozen only if `F`, released only if `U`. -/
structure Evolves (F U : String → Prop) (s s' : FSet) : Prop where
  name : s'.name = s.name
  replicas : s'.replicas = s.replicas
  tmpl : s'.tmpl = s.tmpl
  label_on : s'.label = true → s.label = true ∨ F s.name
  cond_on : s'.cond = true → s.cond = true ∨ F s.name
  label_off : s.label = true → s'.label = true ∨ U s.name
  cond_off : s.cond = true → s'.cond = true ∨ U s.name

/-! ### Lemmas -/

theorem count_eq (v : View) (s : FSet) : count v s = backing v s := by
  unfold count backing
  congr 1
  induction v.machines with
  | nil => rfl
  | cons m l ih =>
    rw [List.map_cons, List.sum_cons, ih]
    by_cases h : selects s.tmpl m.labels = true
    · rw [if_pos h, List.filter_cons_of_pos (by exact h), List.flatMap_cons, List.count_append]
      congr 1
      rw [List.count_eq_countP, List.countP_eq_length_filter]
    · rw [if_neg h, List.filter_cons_of_neg (by exact h), Nat.zero_add]

theorem limit_iff {o : Opts} {v : View} {s : FSet} {h : Int} : Limit o v s h ↔ higher o v s = .ok h := by
  constructor
  · intro hl
    cases hl with
    | alone hd => unfold higher; rw [hd]
    | owned d surge g hd hr hg => unfold higher; rw [hd]; dsimp only; rw [hr]; dsimp only; rw [hg]
  · intro hh
    unfold higher at hh
    cases hd : depOf v s with
    | none => rw [hd] at hh; dsimp only at hh; injection hh with hh; subst hh; exact .alone hd
    | some d =>
      rw [hd] at hh; dsimp only at hh
      cases hr : d.rolling with
      | none => rw [hr] at hh; cases hh
      | some surge =>
        rw [hr] at hh; dsimp only at hh
        cases hg : scaledValue surge d.replicas true with
        | none => rw [hg] at hh; cases hh
        | some g => rw [hg] at hh; dsimp only at hh; injection hh with hh; subst hh; exact .owned d surge g hd hr hg

theorem limit_unique {o : Opts} {v : View} {s : FSet} {h k : Int} (a : Limit o v s h) (b : Limit o v s k) : h = k := by
  rw [limit_iff] at a b; rw [a] at b; injection b

theorem Evolves.refl (F U) (s : FSet) : Evolves F U s s :=
  ⟨rfl, rfl, rfl, Or.inl, Or.inl, Or.inl, Or.inl⟩

theorem Evolves.trans {F U} {a b c : FSet} (h : Evolves F U a b) (k : Evolves F U b c) : Evolves F U a c where
  name := k.name.trans h.name
  replicas := k.replicas.trans h.replicas
  tmpl := k.tmpl.trans h.tmpl
  label_on x := by
    rcases k.label_on x with y | y
    · exact h.label_on y
    · right; rw [← h.name]; exact y
  cond_on x := by
    rcases k.cond_on x with y | y
    · exact h.cond_on y
    · right; rw [← h.name]; exact y
  label_off x := by
    rcases h.label_off x with y | y
    · rcases k.label_off y with z | z
      · exact .inl z
      · right; rw [← h.name]; exact z
    · exact .inr y
  cond_off x := by
    rcases h.cond_off x with y | y
    · rcases k.cond_off y with z | z
      · exact .inl z
      · right; rw [← h.name]; exact z
    · exact .inr y

/-- all sets evolve as allowed -/
abbrev Ev (F U : String → Prop) (a b : Store) : Prop := List.Forall₂ (Evolves F U) a.sets b.sets

theorem forall₂_refl' {α} {R : α → α → Prop} (h : ∀ a, R a a) (l : List α) : List.Forall₂ R l l := by
  induction l with
  | nil => exact .nil
  | cons a l ih => exact .cons (h a) ih

theorem forall₂_trans' {α} {R : α → α → Prop} (h : ∀ a b c, R a b → R b c → R a c) :
    ∀ {l m n : List α}, List.Forall₂ R l m → List.Forall₂ R m n → List.Forall₂ R l n := by
  intro l m n h1
  induction h1 generalizing n with
  | nil => intro h2; exact h2
  | cons hab _ ih => intro h2; cases h2 with | cons hbc t => exact .cons (h _ _ _ hab hbc) (ih t)

theorem Ev.refl (F U) (a : Store) : Ev F U a a := forall₂_refl' (Evolves.refl F U) _

theorem Ev.trans {F U} {a b c : Store} (h : Ev F U a b) (k : Ev F U b c) : Ev F U a c :=
  forall₂_trans' (R := Evolves F U) (fun _ _ _ x y => Evolves.trans x y) h k

theorem forall₂_map' {α} {R : α → α → Prop} {f : α → α} (h : ∀ a, R a (f a)) (l : List α) : List.Forall₂ R l (l.map f) := by
  induction l with
  | nil => exact .nil
  | cons a l ih => exact .cons (h a) ih

theorem ev_andThen {F U} {a : Store} {r : Store × Res} {k : Store → Store × Res} (h : Ev F U a r.1)
    (hk : ∀ st, Ev F U st (k st).1) : Ev F U a (andThen r k).1 := by
  unfold andThen
  split
  · exact h.trans (hk _)
  · exact h

theorem ev_writeSet {F U} (ok : Nat → Bool) (n : String) (f : FSet → FSet) (st : Store)
    (h : ∀ s, s.name = n → Evolves F U s (f s)) : Ev F U st (writeSet ok n f st).1 := by
  unfold writeSet
  split
  · refine forall₂_map' (fun s => ?_) _
    split
    · rename_i hn; exact h s (by simpa using hn)
    · exact .refl _ _ s
  · exact forall₂_refl' (Evolves.refl F U) _

theorem ev_writeDep {F U} (ok : Nat → Bool) (n : String) (f : FDep → FDep) (st : Store) : Ev F U st (writeDep ok n f st).1 := by
  unfold writeDep
  split <;> exact forall₂_refl' (Evolves.refl F U) _

theorem ev_freezeDep {F U} (ok n st) : Ev F U st (freezeDep ok n st).1 :=
  ev_andThen (ev_writeDep _ _ _ _) fun _ => ev_writeDep _ _ _ _

theorem ev_unfreezeDep {F U} (ok n st) : Ev F U st (unfreezeDep ok n st).1 :=
  ev_andThen (ev_writeDep _ _ _ _) fun _ => ev_writeDep _ _ _ _

theorem ev_freezeSet {F U : String → Prop} (ok v s st) (h : F s.name) : Ev F U st (freezeSet ok v s st).1 := by
  refine ev_andThen (ev_writeSet _ _ _ _ fun x hx => ?_) fun st => ev_andThen (ev_writeSet _ _ _ _ fun x hx => ?_) fun st => ?_
  · exact ⟨rfl, rfl, rfl, Or.inl, fun _ => .inr (hx ▸ h), Or.inl, fun _ => .inl rfl⟩
  · exact ⟨rfl, rfl, rfl, fun _ => .inr (hx ▸ h), Or.inl, fun _ => .inl rfl, Or.inl⟩
  · cases depOf v s with
    | none => exact .refl _ _ _
    | some d => exact ev_freezeDep _ _ _

theorem ev_unfreezeSet {F U : String → Prop} (ok n st) (h : U n) : Ev F U st (unfreezeSet ok n st).1 := by
  refine ev_andThen (ev_writeSet _ _ _ _ fun x hx => ?_) fun st => (ev_writeSet _ _ _ _ fun x hx => ?_)
  · exact ⟨rfl, rfl, rfl, Or.inl, fun h => (by cases h), Or.inl, fun _ => .inr (hx ▸ h)⟩
  · exact ⟨rfl, rfl, rfl, fun h => (by cases h), Or.inl, fun _ => .inr (hx ▸ h), Or.inl⟩

theorem ev_unfreezeSetAndDep {F U : String → Prop} (ok v s st) (h : U s.name) : Ev F U st (unfreezeSetAndDep ok v s st).1 := by
  unfold unfreezeSetAndDep
  split
  · exact ev_unfreezeSet _ _ _ h
  · exact ev_andThen (ev_unfreezeDep _ _ _) fun _ => ev_unfreezeSet _ _ _ h

theorem decide_freeze {o v s} (h : decideSet o v s = .freeze) : ∃ k, Limit o v s k ∧ backing v s ≥ k := by
  unfold decideSet at h
  cases hh : higher o v s with
  | error r => rw [hh] at h; cases h
  | ok k =>
    rw [hh] at h; dsimp only at h
    split at h
    · rename_i hc
      refine ⟨k, limit_iff.2 hh, ?_⟩
      simp only [Bool.and_eq_true, decide_eq_true_eq] at hc
      rw [← count_eq]; exact hc.2
    · split at h <;> cases h

theorem decide_unfreeze {o v s} (h : decideSet o v s = .unfreeze) : ∃ k, Limit o v s k ∧ backing v s ≤ k - o.down := by
  unfold decideSet at h
  cases hh : higher o v s with
  | error r => rw [hh] at h; cases h
  | ok k =>
    rw [hh] at h; dsimp only at h
    split at h
    · cases h
    · split at h
      · rename_i hc
        refine ⟨k, limit_iff.2 hh, ?_⟩
        simp only [Bool.and_eq_true, decide_eq_true_eq] at hc
        rw [← count_eq]; exact hc.1
      · cases h

theorem ev_checkSets {F U : String → Prop} (o ok v) (hF : ∀ n, Over o v n → F n) (hU : ∀ n, Under o v n → U n) :
    ∀ l st, (∀ s ∈ l, s ∈ v.sets) → Ev F U st (checkSets o ok v l st).1 := by
  intro l
  induction l with
  | nil => intro st _; exact .refl _ _ _
  | cons s rest ih =>
    intro st hl
    unfold checkSets
    split
    · exact .refl _ _ _
    · rename_i hd
      exact ev_freezeSet _ _ _ _ (hF _ ⟨s, hl s (by simp), rfl, decide_freeze hd⟩)
    · rename_i hd
      exact ev_unfreezeSetAndDep _ _ _ _ (hU _ ⟨s, hl s (by simp), rfl, decide_unfreeze hd⟩)
    · exact ih st fun x hx => hl x (by simp [hx])

theorem ev_syncDeps {F U} (ok v) : ∀ l st, Ev F U st (syncDeps ok v l st).1 := by
  intro l
  induction l with
  | nil => intro st; exact .refl _ _ _
  | cons d rest ih =>
    intro st
    unfold syncDeps
    split
    · split
      · exact ev_andThen (ev_freezeDep _ _ _) ih
      · exact ih st
    · split
      · exact ev_andThen (ev_unfreezeDep _ _ _) ih
      · exact ih st

theorem ev_annotate {F U} (ok) : ∀ l st, Ev F U st (annotateSets ok l st).1 := by
  intro l
  induction l with
  | nil => intro st; exact .refl _ _ _
  | cons n rest ih =>
    intro st
    exact ev_andThen (ev_writeSet _ _ _ _ fun x _ => ⟨rfl, rfl, rfl, Or.inl, Or.inl, Or.inl, Or.inl⟩) ih

theorem ev_annDeps {F U} (ok v) : ∀ l st, Ev F U st (unfreezeAnnotatedDeps ok v l st).1 := by
  intro l
  induction l with
  | nil => intro st; exact .refl _ _ _
  | cons d rest ih =>
    intro st
    unfold unfreezeAnnotatedDeps
    split
    · exact ev_andThen (ev_unfreezeDep _ _ _) fun st => ev_andThen (ev_annotate _ _ _) ih
    · exact ih st

theorem ev_annSets {F U : String → Prop} (ok) (v : View) (hU : ∀ n, Asked v n → U n) :
    ∀ l st, (∀ s ∈ l, s ∈ v.sets) → Ev F U st (unfreezeAnnotatedSets ok l st).1 := by
  intro l
  induction l with
  | nil => intro st _; exact .refl _ _ _
  | cons s rest ih =>
    intro st hl
    unfold unfreezeAnnotatedSets
    have hr : ∀ x ∈ rest, x ∈ v.sets := fun x hx => hl x (by simp [hx])
    split
    · rename_i ha
      exact ev_andThen (ev_unfreezeSet _ _ _ (hU _ ⟨s, hl s (by simp), rfl, ha⟩)) fun st => ih st hr
    · exact ih st hr

/-! ### C21 -/

/-- C21: In any run, whatever the listers show at each stage and whichever API calls fail, a set becomes frozen only if
it was seen at or above its limit, and is released only if it was seen at or below the limit minus the margin, or with
the unfreeze annotation. Sizes and templates are never touched. -/
theorem C21_run (o : Opts) (ok : Nat → Bool) (w : Views) (st : Store) :
    List.Forall₂ (Evolves (Over o w.v1) (fun n => Under o w.v1 n ∨ Asked w.v4 n)) st.sets (run o ok w st).1.sets := by
  have h1 : Ev (Over o w.v1) (fun n => Under o w.v1 n ∨ Asked w.v4 n) st (checkSets o ok w.v1 w.v1.sets st).1 :=
    ev_checkSets _ _ _ (fun _ h => h) (fun _ h => .inl h) _ _ fun _ h => h
  unfold run
  dsimp only
  split
  · exact h1
  · exact ((h1.trans (ev_syncDeps _ _ _ _)).trans (ev_annDeps _ _ _ _)).trans
      (ev_annSets _ w.v4 (fun _ h => .inr h) _ _ fun _ h => h)

/-- one run: API answers and views -/
structure Run where
  ok : Nat → Bool
  views : Views

/-- the stores after each of a list of runs -/
def runs (o : Opts) : List Run → Store → Store
  | [], st => st
  | r :: rs, st => runs o rs (run o r.ok r.views st).1

/-- in run `r` from `st` the `i`-th set goes from unfrozen to frozen -/
def Freezes (o : Opts) (r : Run) (st : Store) (i : Nat) : Prop :=
  ∃ s s', st.sets[i]? = some s ∧ (run o r.ok r.views st).1.sets[i]? = some s' ∧ s.label = false ∧ s'.label = true

/-- in run `r` from `st` the `i`-th set goes from frozen to unfrozen -/
def Releases (o : Opts) (r : Run) (st : Store) (i : Nat) : Prop :=
  ∃ s s', st.sets[i]? = some s ∧ (run o r.ok r.views st).1.sets[i]? = some s' ∧ s.label = true ∧ s'.label = false

/-- every run sees set `n` with `c` machines and limit `h`, and without the unfreeze annotation -/
def Steady (o : Opts) (n : String) (c h : Int) (r : Run) : Prop :=
  (∀ s ∈ r.views.v1.sets, s.name = n → backing r.views.v1 s = c ∧ Limit o r.views.v1 s h) ∧ ¬ Asked r.views.v4 n

theorem forall₂_get {α} {R : α → α → Prop} : ∀ {l m : List α}, List.Forall₂ R l m → ∀ (i : Nat) (a b : α),
    l[i]? = some a → m[i]? = some b → R a b := by
  intro l m h
  induction h with
  | nil => intro i a b h1; simp at h1
  | cons hab _ ih =>
    intro i a b h1 h2
    cases i with
    | zero => simp at h1 h2; subst h1 h2; exact hab
    | succ i => simp at h1 h2; exact ih i a b h1 h2

theorem name_preserved (o : Opts) : ∀ (rs : List Run) (st : Store) (i : Nat) (n : String),
    (∃ s, st.sets[i]? = some s ∧ s.name = n) → ∃ s, (runs o rs st).sets[i]? = some s ∧ s.name = n := by
  intro rs
  induction rs with
  | nil => intro st i n h; exact h
  | cons r rs ih =>
    intro st i n h
    refine ih _ i n ?_
    obtain ⟨s, hs, hn⟩ := h
    have hf := C21_run o r.ok r.views st
    have hl := hf.length_eq
    have hi : i < st.sets.length := (List.getElem?_eq_some_iff.1 hs).1
    have hb : (run o r.ok r.views st).1.sets[i]? = some ((run o r.ok r.views st).1.sets[i]'(hl ▸ hi)) :=
      List.getElem?_eq_getElem _
    exact ⟨_, hb, (forall₂_get hf i _ _ hs hb).name.trans hn⟩

/-- C21: while the machine count and the limit of a set stay the same and the margin is positive, no history of runs –
with any lister views of the other fields, any failures – both freezes and releases it. -/
theorem C21_hysteresis (o : Opts) (hdown : o.down > 0) (n : String) (c h : Int) (i : Nat)
    (pre mid : List Run) (r1 r2 : Run) (st : Store)
    (hs : ∃ s, st.sets[i]? = some s ∧ s.name = n)
    (st1 : ∀ r ∈ pre ++ r1 :: mid ++ [r2], Steady o n c h r) :
    ¬ (Freezes o r1 (runs o pre st) i ∧ Releases o r2 (runs o (pre ++ r1 :: mid) st) i) ∧
    ¬ (Releases o r1 (runs o pre st) i ∧ Freezes o r2 (runs o (pre ++ r1 :: mid) st) i) := by
  have fr : ∀ (r : Run) (rs : List Run), Steady o n c h r → Freezes o r (runs o rs st) i → c ≥ h := by
    intro r rs hr hf
    obtain ⟨s, s', h1, h2, h3, h4⟩ := hf
    obtain ⟨t, ht, htn⟩ := name_preserved o rs st i n hs
    rw [ht] at h1; injection h1 with h1; subst h1
    have := (forall₂_get (C21_run o r.ok r.views _) i _ _ ht h2).label_on h4
    rcases this with e | ⟨x, hx, hxn, k, hk, hb⟩
    · rw [e] at h3; cases h3
    · obtain ⟨hc, hl⟩ := hr.1 x hx (hxn.trans htn)
      rw [limit_unique hk hl, hc] at hb; exact hb
  have re : ∀ (r : Run) (rs : List Run), Steady o n c h r → Releases o r (runs o rs st) i → c ≤ h - o.down := by
    intro r rs hr hf
    obtain ⟨s, s', h1, h2, h3, h4⟩ := hf
    obtain ⟨t, ht, htn⟩ := name_preserved o rs st i n hs
    rw [ht] at h1; injection h1 with h1; subst h1
    have := (forall₂_get (C21_run o r.ok r.views _) i _ _ ht h2).label_off h3
    rcases this with e | ⟨x, hx, hxn, k, hk, hb⟩ | ha
    · rw [e] at h4; cases h4
    · obtain ⟨hc, hl⟩ := hr.1 x hx (hxn.trans htn)
      rw [limit_unique hk hl, hc] at hb; exact hb
    · exact absurd (htn ▸ ha) hr.2
  have s1 := st1 r1 (by simp)
  have s2 := st1 r2 (by simp)
  constructor
  · rintro ⟨a, b⟩
    have := fr _ _ s1 a; have := re _ _ s2 b; omega
  · rintro ⟨a, b⟩
    have := re _ _ s1 a; have := fr _ _ s2 b; omega

/-- example data: a standalone set of one replica with four machines; limit 2*1+2 = 4 -/
def exSet : FSet := { name := "s", replicas := 1 }
def exMachines (k : Nat) : List FMachine := List.replicate k { owners := ["s"] }
def exStore : Store := { sets := [exSet], deps := [] }
def exRun (k : Nat) (st : Store) : Run :=
  let v : View := { sets := st.sets, deps := st.deps, machines := exMachines k }
  { ok := fun _ => true, views := ⟨v, v, v, v⟩ }

/-- freezing at 4, still frozen, released at 3 -/
example : Freezes ⟨2, 1⟩ (exRun 4 exStore) exStore 0 ∧
    Releases ⟨2, 1⟩ (exRun 3 (run ⟨2, 1⟩ (exRun 4 exStore).ok (exRun 4 exStore).views exStore).1)
      (run ⟨2, 1⟩ (exRun 4 exStore).ok (exRun 4 exStore).views exStore).1 0 :=
  ⟨⟨exSet, { exSet with label := true, cond := true }, rfl, by decide +kernel, rfl, rfl⟩,
   ⟨{ exSet with label := true, cond := true }, exSet, by decide +kernel, by decide +kernel, rfl, rfl⟩⟩

/-- the hypotheses of `C21_hysteresis` are met: a steady run that freezes -/
example : Steady ⟨2, 1⟩ "s" 4 4 (exRun 4 exStore) := by
  refine ⟨?_, ?_⟩
  · intro s hs _
    have : s = exSet := by simpa [exRun, exStore] using hs
    subst this
    exact ⟨by decide +kernel, .alone rfl⟩
  · rintro ⟨s, hs, _, ha⟩
    have : s = exSet := by simpa [exRun, exStore] using hs
    subst this; cases ha

/-- C21 fails with a zero margin (accepted by the command line: no check): at exactly the limit the set is frozen and
released in turn, for ever. -/
theorem C21_zero_margin_false :
    ∃ (o : Opts) (r1 r2 : Run) (st : Store), o.down = 0 ∧
      Steady o "s" 4 4 r1 ∧ Steady o "s" 4 4 r2 ∧
      Freezes o r1 st 0 ∧ Releases o r2 (runs o [r1] st) 0 ∧ runs o [r1, r2] st = { st with calls := 4 } := by
  have hst : ∀ (st : Store) (l c : Bool), st.sets = [{ exSet with label := l, cond := c }] →
      Steady ⟨2, 0⟩ "s" 4 4 (exRun 4 st) := by
    intro st l c h
    refine ⟨?_, ?_⟩
    · intro s hs _
      have : s = { exSet with label := l, cond := c } := by
        have hs : s ∈ st.sets := hs
        rw [h] at hs; simpa using hs
      subst this
      exact ⟨by show ((_ : Nat) : Int) = 4; congr 1, .alone rfl⟩
    · rintro ⟨s, hs, _, ha⟩
      have : s = { exSet with label := l, cond := c } := by
        have hs : s ∈ st.sets := hs
        rw [h] at hs; simpa using hs
      subst this; cases ha
  refine ⟨⟨2, 0⟩, exRun 4 exStore, exRun 4 (runs ⟨2, 0⟩ [exRun 4 exStore] exStore), exStore, rfl,
    hst _ false false rfl, hst _ true true (by decide +kernel),
    ⟨exSet, { exSet with label := true, cond := true }, rfl, by decide +kernel, rfl, rfl⟩,
    ⟨{ exSet with label := true, cond := true }, exSet, by decide +kernel, by decide +kernel, rfl, rfl⟩, by rfl⟩

/-- C21: The safety loop panics as soon as a set belongs to a deployment without rolling-update settings (Recreate), so
no set listed later is ever frozen. -/
theorem C21_recreate_panics_false (o : Opts) (ok : Nat → Bool) (s : FSet) (rest : List FSet) (st : Store) :
    ∃ v : View, v.sets = s :: rest ∧
      ∀ w : Views, w.v1 = v → run o ok w st = (st, .panic) := by
  refine ⟨{ sets := s :: rest, deps := [{ name := "d", replicas := 1, rolling := none }], owner := fun _ => some "d" },
    rfl, ?_⟩
  intro w hw
  have : checkSets o ok w.v1 w.v1.sets st = (st, .panic) := by
    rw [hw]; rfl
  unfold run
  rw [this]; rfl

/-! ### Convergence of undisturbed runs -/

/-- deployments differ only in their freeze state -/
def SameDeps (a b : Store) : Prop :=
  List.Forall₂ (fun d e : FDep => e.name = d.name ∧ e.replicas = d.replicas ∧ e.rolling = d.rolling ∧ (e.ann = true → d.ann = true))
    a.deps b.deps

theorem SameDeps.refl (a : Store) : SameDeps a a := forall₂_refl' (fun _ => ⟨rfl, rfl, rfl, id⟩) _
theorem SameDeps.trans {a b c : Store} (h : SameDeps a b) (k : SameDeps b c) : SameDeps a c :=
  forall₂_trans' (R := fun d e : FDep => e.name = d.name ∧ e.replicas = d.replicas ∧ e.rolling = d.rolling ∧ (e.ann = true → d.ann = true))
    (fun _ _ _ x y => ⟨y.1.trans x.1, y.2.1.trans x.2.1, y.2.2.1.trans x.2.2.1, fun z => x.2.2.2 (y.2.2.2 z)⟩) h k

theorem sd_writeDep (ok n f st) (h : ∀ d : FDep, (f d).name = d.name ∧ (f d).replicas = d.replicas ∧
    (f d).rolling = d.rolling ∧ ((f d).ann = true → d.ann = true)) : SameDeps st (writeDep ok n f st).1 := by
  unfold writeDep
  split
  · refine forall₂_map' (fun d => ?_) _
    split
    · exact h d
    · exact ⟨rfl, rfl, rfl, id⟩
  · exact .refl _

theorem sd_writeSet (ok n f st) : SameDeps st (writeSet ok n f st).1 := by
  unfold writeSet; split <;> exact SameDeps.refl _

theorem sd_andThen {a : Store} {r : Store × Res} {k} (h : SameDeps a r.1) (hk : ∀ st, SameDeps st (k st).1) :
    SameDeps a (andThen r k).1 := by
  unfold andThen; split
  · exact h.trans (hk _)
  · exact h

theorem sd_freezeDep (ok n st) : SameDeps st (freezeDep ok n st).1 :=
  sd_andThen (sd_writeDep _ _ _ _ fun _ => ⟨rfl, rfl, rfl, id⟩) fun _ => sd_writeDep _ _ _ _ fun _ => ⟨rfl, rfl, rfl, id⟩

theorem sd_freezeDep' {ok} (n) {st st2 : Store} (h : st2.deps = st.deps) : SameDeps st (freezeDep ok n st2).1 := by
  have := sd_freezeDep ok n st2
  unfold SameDeps at *
  rw [← h]; exact this

theorem sd_unfreezeDep (ok n st) : SameDeps st (unfreezeDep ok n st).1 :=
  sd_andThen (sd_writeDep _ _ _ _ fun _ => ⟨rfl, rfl, rfl, id⟩) fun _ => sd_writeDep _ _ _ _ fun _ => ⟨rfl, rfl, rfl, fun h => by cases h⟩

/-- sets untouched -/
theorem sets_writeDep (ok n f st) : (writeDep ok n f st).1.sets = st.sets := by
  unfold writeDep; split <;> rfl

theorem sets_freezeDep (ok n st) : (freezeDep ok n st).1.sets = st.sets := by
  unfold freezeDep andThen; split
  · rw [sets_writeDep, sets_writeDep]
  · rw [sets_writeDep]

theorem sets_unfreezeDep (ok n st) : (unfreezeDep ok n st).1.sets = st.sets := by
  unfold unfreezeDep andThen; split
  · rw [sets_writeDep, sets_writeDep]
  · rw [sets_writeDep]

theorem syncDeps_same (ok v) : ∀ l st, (syncDeps ok v l st).1.sets = st.sets ∧ SameDeps st (syncDeps ok v l st).1 := by
  intro l
  induction l with
  | nil => intro st; exact ⟨rfl, .refl _⟩
  | cons d rest ih =>
    intro st
    unfold syncDeps
    split
    · split
      · refine ⟨?_, sd_andThen (sd_freezeDep _ _ _) fun st => (ih st).2⟩
        unfold andThen; split
        · rw [(ih _).1, sets_freezeDep]
        · rw [sets_freezeDep]
      · exact ih st
    · split
      · refine ⟨?_, sd_andThen (sd_unfreezeDep _ _ _) fun st => (ih st).2⟩
        unfold andThen; split
        · rw [(ih _).1, sets_unfreezeDep]
        · rw [sets_unfreezeDep]
      · exact ih st

theorem annDeps_none (ok v) : ∀ l st, (∀ d ∈ l, d.ann = false) → unfreezeAnnotatedDeps ok v l st = (st, .done) := by
  intro l
  induction l with
  | nil => intro st _; rfl
  | cons d rest ih =>
    intro st h
    unfold unfreezeAnnotatedDeps
    rw [if_neg (by rw [h d (by simp)]; decide)]
    exact ih st fun x hx => h x (by simp [hx])

theorem annSets_none (ok) : ∀ l st, (∀ d ∈ l, d.ann = false) → unfreezeAnnotatedSets ok l st = (st, .done) := by
  intro l
  induction l with
  | nil => intro st _; rfl
  | cons d rest ih =>
    intro st h
    unfold unfreezeAnnotatedSets
    rw [if_neg (by rw [h d (by simp)]; decide)]
    exact ih st fun x hx => h x (by simp [hx])

theorem find_forall₂ {R : FDep → FDep → Prop} (hR : ∀ d e, R d e → e.name = d.name) (n : String) :
    ∀ {l m : List FDep}, List.Forall₂ R l m →
    (l.find? (fun d => d.name == n) = none ∧ m.find? (fun d => d.name == n) = none) ∨
    ∃ d e, l.find? (fun d => d.name == n) = some d ∧ m.find? (fun d => d.name == n) = some e ∧ R d e := by
  intro l m h
  induction h with
  | nil => exact .inl ⟨rfl, rfl⟩
  | @cons a b l m hab _ ih =>
    by_cases hn : a.name = n
    · right
      refine ⟨a, b, ?_, ?_, hab⟩
      · rw [List.find?_cons_of_pos (by simpa using hn)]
      · rw [List.find?_cons_of_pos (by simpa using (hR _ _ hab).trans hn)]
    · rw [List.find?_cons_of_neg (by simpa using hn), List.find?_cons_of_neg (by simp [hR _ _ hab, hn])]
      exact ih

theorem higher_congr {o mach owner ch} {a b : Store} (h : SameDeps a b) (s t : FSet) (hn : t.name = s.name)
    (hr : t.replicas = s.replicas) : higher o (fresh mach owner ch b) t = higher o (fresh mach owner ch a) s := by
  unfold higher depOf fresh
  dsimp only
  rw [hn, hr]
  cases owner s.name with
  | none => rfl
  | some n =>
    rcases find_forall₂ (fun _ _ h => h.1) n h with ⟨h1, h2⟩ | ⟨d, e, h1, h2, hde⟩
    · simp only [Option.bind_some, h1, h2]
    · simp only [Option.bind_some, h1, h2, hde.2.1, hde.2.2.1]

theorem decide_congr {o mach owner ch} {a b : Store} (h : SameDeps a b) (s : FSet) :
    decideSet o (fresh mach owner ch b) s = decideSet o (fresh mach owner ch a) s := by
  unfold decideSet
  rw [higher_congr h s s rfl rfl]
  rfl

/-- write succeeding -/
theorem writeSet_ok (n f) (st : Store) (h : ∃ s ∈ st.sets, s.name = n) :
    writeSet (fun _ => true) n f st =
      ({ st with sets := st.sets.map (fun s => if s.name == n then f s else s), calls := st.calls + 1 }, .done) := by
  unfold writeSet
  rw [if_pos]
  obtain ⟨s, hs, hn⟩ := h
  simp only [Bool.true_and, List.any_eq_true]
  exact ⟨s, hs, by simpa using hn⟩

theorem writeDep_ok (n f) (st : Store) (h : ∃ s ∈ st.deps, s.name = n) :
    writeDep (fun _ => true) n f st =
      ({ st with deps := st.deps.map (fun s => if s.name == n then f s else s), calls := st.calls + 1 }, .done) := by
  unfold writeDep
  rw [if_pos]
  obtain ⟨s, hs, hn⟩ := h
  simp only [Bool.true_and, List.any_eq_true]
  exact ⟨s, hs, by simpa using hn⟩

theorem writeDep_ok_res (n f) (st : Store) (h : ∃ s ∈ st.deps, s.name = n) :
    (writeDep (fun _ => true) n f st).2 = .done := by
  rw [writeDep_ok n f st h]

theorem dep_persists {a b : Store} (h : SameDeps a b) {n : String} (he : ∃ d ∈ a.deps, d.name = n) :
    ∃ d ∈ b.deps, d.name = n := by
  obtain ⟨d, hd, hn⟩ := he
  obtain ⟨i, hi, hget⟩ := List.mem_iff_getElem.1 hd
  have hl := h.length_eq
  have h1 : a.deps[i]? = some d := by rw [List.getElem?_eq_getElem hi, hget]
  have h2 : b.deps[i]? = some (b.deps[i]'(hl ▸ hi)) := List.getElem?_eq_getElem _
  exact ⟨_, List.getElem_mem _, (forall₂_get h i _ _ h1 h2).1.trans hn⟩

theorem unfreezeDep_res (n) (st : Store) (h : ∃ s ∈ st.deps, s.name = n) : (unfreezeDep (fun _ => true) n st).2 = .done := by
  unfold unfreezeDep andThen
  rw [if_pos (writeDep_ok_res _ _ _ h)]
  refine writeDep_ok_res _ _ _ (dep_persists ?_ h)
  exact sd_writeDep _ _ _ _ fun _ => ⟨rfl, rfl, rfl, id⟩

/-- after the two writes of `unfreezeSet` -/
theorem unfreezeSet_ok (n) (st : Store) (h : ∃ s ∈ st.sets, s.name = n) :
    (unfreezeSet (fun _ => true) n st).1.sets =
      st.sets.map (fun s => if s.name == n then { s with cond := false, label := false, ann := false } else s) ∧
    (unfreezeSet (fun _ => true) n st).1.deps = st.deps := by
  unfold unfreezeSet
  rw [writeSet_ok _ _ _ h]
  unfold andThen
  rw [if_pos rfl]
  dsimp only
  rw [writeSet_ok]
  · refine ⟨?_, rfl⟩
    dsimp only
    rw [List.map_map]
    refine List.map_congr_left fun s _ => ?_
    by_cases hs : s.name == n <;> simp [Function.comp, hs]
  · obtain ⟨s, hs, hn⟩ := h
    exact ⟨_, List.mem_map.2 ⟨s, hs, rfl⟩, by split <;> exact hn⟩

theorem freezeSet_ok (v : View) (s : FSet) (st : Store) (h : ∃ t ∈ st.sets, t.name = s.name) :
    (freezeSet (fun _ => true) v s st).1.sets =
      st.sets.map (fun t => if t.name == s.name then { t with cond := true, label := true } else t) ∧
    SameDeps st (freezeSet (fun _ => true) v s st).1 := by
  unfold freezeSet
  rw [writeSet_ok _ _ _ h]
  unfold andThen
  rw [if_pos rfl]
  dsimp only
  rw [writeSet_ok]
  · rw [if_pos rfl]
    have key : (st.sets.map (fun t => if t.name == s.name then { t with cond := true } else t)).map
        (fun t => if t.name == s.name then { t with label := true } else t) =
        st.sets.map (fun t => if t.name == s.name then { t with cond := true, label := true } else t) := by
      rw [List.map_map]
      refine List.map_congr_left fun t _ => ?_
      by_cases hs : t.name == s.name <;> simp [Function.comp, hs]
    cases depOf v s with
    | none => exact ⟨key, .refl _⟩
    | some d => dsimp only; exact ⟨by rw [sets_freezeDep]; exact key,
        sd_freezeDep' d.name rfl⟩
  · obtain ⟨t, hs, hn⟩ := h
    exact ⟨_, List.mem_map.2 ⟨t, hs, rfl⟩, by split <;> exact hn⟩

/-- conditions of the convergence theorem: names identify sets, every limit can be computed, nobody asks to unfreeze -/
structure Quiet (o : Opts) (mach : List FMachine) (owner : String → Option String) (ch : String → List String)
    (st : Store) : Prop where
  names : (st.sets.map (·.name)).Nodup
  limits : ∀ s ∈ st.sets, ∃ h, Limit o (fresh mach owner ch st) s h
  sets_ann : ∀ s ∈ st.sets, s.ann = false
  deps_ann : ∀ d ∈ st.deps, d.ann = false

/-- sets still needing an action -/
def pending (o : Opts) (mach : List FMachine) (owner : String → Option String) (ch : String → List String) (st : Store) : Nat :=
  st.sets.countP fun s => decide (decideSet o (fresh mach owner ch st) s ≠ .skip)

/-- the set acted upon first, and the outcome -/
theorem checkSets_cases {o mach owner ch} {st : Store} (q : Quiet o mach owner ch st) :
    ∀ l, (∀ s ∈ l, s ∈ st.sets) →
    ((∀ s ∈ l, decideSet o (fresh mach owner ch st) s = .skip) ∧
      checkSets o (fun _ => true) (fresh mach owner ch st) l st = (st, .done)) ∨
    ∃ s ∈ l, ∃ b : Bool, decideSet o (fresh mach owner ch st) s = (if b then .freeze else .unfreeze) ∧
      (checkSets o (fun _ => true) (fresh mach owner ch st) l st).2 ≠ .panic ∧
      (checkSets o (fun _ => true) (fresh mach owner ch st) l st).1.sets =
        st.sets.map (fun t => if t.name == s.name then { t with cond := b, label := b, ann := false } else t) ∧
      SameDeps st (checkSets o (fun _ => true) (fresh mach owner ch st) l st).1 := by
  intro l
  induction l with
  | nil => intro _; exact .inl ⟨fun _ h => (nomatch h), rfl⟩
  | cons s rest ih =>
    intro hl
    have hs := hl s (by simp)
    have nopanic : ∀ (r : Store × Res) (k : Store → Store × Res), r.2 ≠ .panic → (∀ st, (k st).2 ≠ .panic) →
        (andThen r k).2 ≠ .panic := by
      intro r k h1 h2
      unfold andThen; split
      · exact h2 _
      · exact h1
    have npS : ∀ n f st, (writeSet (fun _ => true) n f st).2 ≠ .panic := by
      intro n f st; unfold writeSet; split <;> simp
    have npD : ∀ n f st, (writeDep (fun _ => true) n f st).2 ≠ .panic := by
      intro n f st; unfold writeDep; split <;> simp
    cases hd : decideSet o (fresh mach owner ch st) s with
    | stop r =>
      exfalso
      obtain ⟨h, hh⟩ := q.limits s hs
      unfold decideSet at hd
      rw [limit_iff.1 hh] at hd
      dsimp only at hd
      split at hd
      · cases hd
      · split at hd <;> cases hd
    | freeze =>
      right
      refine ⟨s, by simp, true, by simpa using hd, ?_, ?_, ?_⟩
      all_goals unfold checkSets; rw [hd]; dsimp only
      · unfold freezeSet
        refine nopanic _ _ (npS _ _ _) fun st => nopanic _ _ (npS _ _ _) fun st => ?_
        split
        · simp
        · exact nopanic _ _ (npD _ _ _) fun _ => npD _ _ _
      · rw [(freezeSet_ok _ s st ⟨s, hs, rfl⟩).1]
        refine List.map_congr_left fun t ht => ?_
        by_cases hn : t.name == s.name
        · rw [if_pos hn, if_pos hn, ← q.sets_ann t ht]
        · rw [if_neg hn, if_neg hn]
      · exact (freezeSet_ok _ s st ⟨s, hs, rfl⟩).2
    | unfreeze =>
      right
      refine ⟨s, by simp, false, by simpa using hd, ?_, ?_, ?_⟩
      all_goals unfold checkSets; rw [hd]; dsimp only
      · unfold unfreezeSetAndDep
        split
        · exact nopanic _ _ (npS _ _ _) fun _ => npS _ _ _
        · refine nopanic _ _ (nopanic _ _ (npD _ _ _) fun _ => npD _ _ _) fun st => ?_
          exact nopanic _ _ (npS _ _ _) fun _ => npS _ _ _
      · unfold unfreezeSetAndDep
        split
        · exact (unfreezeSet_ok _ st ⟨s, hs, rfl⟩).1
        · rename_i d hdep
          have hex : ∃ x ∈ st.deps, x.name = d.name := by
            unfold depOf fresh at hdep
            dsimp only at hdep
            cases ho : owner s.name with
            | none => rw [ho] at hdep; cases hdep
            | some n =>
              rw [ho] at hdep
              exact ⟨d, List.mem_of_find?_eq_some hdep, rfl⟩
          unfold andThen
          rw [if_pos (unfreezeDep_res _ _ hex), (unfreezeSet_ok _ _ _).1, sets_unfreezeDep]
          rw [sets_unfreezeDep]; exact ⟨s, hs, rfl⟩
      · unfold unfreezeSetAndDep
        split
        · show SameDeps _ _
          unfold SameDeps
          rw [(unfreezeSet_ok _ st ⟨s, hs, rfl⟩).2]
          exact SameDeps.refl st
        · refine sd_andThen (sd_unfreezeDep _ _ _) fun st => ?_
          exact sd_andThen (sd_writeSet _ _ _ _) fun _ => sd_writeSet _ _ _ _
    | skip =>
      rcases ih (fun x hx => hl x (by simp [hx])) with ⟨h1, h2⟩ | ⟨x, hx, b, h1, h2⟩
      · left
        refine ⟨fun x hx => ?_, ?_⟩
        · rcases List.mem_cons.1 hx with rfl | hx
          · exact hd
          · exact h1 x hx
        · unfold checkSets; rw [hd]; exact h2
      · right
        refine ⟨x, by simp [hx], b, h1, ?_⟩
        have : checkSets o (fun _ => true) (fresh mach owner ch st) (s :: rest) st =
            checkSets o (fun _ => true) (fresh mach owner ch st) rest st := by
          conv => lhs; unfold checkSets
          rw [hd]
        rw [this]; exact h2

theorem decide_settled {o : Opts} (hdown : o.down > 0) {v : View} {s : FSet} {b : Bool}
    (h : decideSet o v s = if b then .freeze else .unfreeze) (v' : View) (s' : FSet)
    (hh : higher o v' s' = higher o v s) (hc : count v' s' = count v s) (hl : s'.label = b) (hcond : s'.cond = b) :
    decideSet o v' s' = .skip := by
  unfold decideSet at h ⊢
  rw [hh, hc, hl, hcond]
  cases hx : higher o v s with
  | error r => rw [hx] at h; dsimp only at h; cases b <;> cases h
  | ok k =>
    rw [hx] at h
    dsimp only at h ⊢
    cases b with
    | true =>
      split at h
      · rename_i hcnt
        simp only [Bool.and_eq_true, decide_eq_true_eq] at hcnt
        rw [if_neg (by simp), if_neg]
        simp only [Bool.and_eq_true, decide_eq_true_eq]; omega
      · split at h <;> cases h
    | false =>
      split at h
      · cases h
      · split at h
        · rename_i _ hcnt
          simp only [Bool.and_eq_true, decide_eq_true_eq] at hcnt
          rw [if_neg, if_neg (by simp)]
          simp only [Bool.and_eq_true, decide_eq_true_eq]; omega
        · cases h

/-- an undisturbed run: what it does to the sets -/
theorem idealRun_sets {o mach owner ch} {st : Store} (q : Quiet o mach owner ch st) :
    SameDeps st (idealRun o mach owner ch st) ∧
    (((∀ s ∈ st.sets, decideSet o (fresh mach owner ch st) s = .skip) ∧ (idealRun o mach owner ch st).sets = st.sets) ∨
     ∃ s ∈ st.sets, ∃ b : Bool, decideSet o (fresh mach owner ch st) s = (if b then .freeze else .unfreeze) ∧
       (idealRun o mach owner ch st).sets =
        st.sets.map (fun t => if t.name == s.name then { t with cond := b, label := b, ann := false } else t)) := by
  have main : ∀ r1 : Store × Res, r1 = checkSets o (fun _ => true) (fresh mach owner ch st) st.sets st →
      r1.2 ≠ .panic → SameDeps st r1.1 → (∀ s ∈ r1.1.sets, s.ann = false) →
      (idealRun o mach owner ch st).sets = r1.1.sets ∧ SameDeps st (idealRun o mach owner ch st) := by
    intro r1 hr1 hnp hsd hann
    have e : idealRun o mach owner ch st =
        (syncDeps (fun _ => true) (fresh mach owner ch r1.1) r1.1.deps r1.1).1 := by
      unfold idealRun
      dsimp only
      rw [← hr1, if_neg hnp]
      have hs2 := syncDeps_same (fun _ => true) (fresh mach owner ch r1.1) r1.1.deps r1.1
      rw [annDeps_none]
      · rw [annSets_none]
        rw [hs2.1]; exact hann
      · intro d hd
        have hsd2 := hsd.trans hs2.2
        obtain ⟨i, hi, hget⟩ := List.mem_iff_getElem.1 hd
        have hl := hsd2.length_eq
        have h1 : st.deps[i]? = some (st.deps[i]'(hl ▸ hi)) := List.getElem?_eq_getElem _
        have h2 := List.getElem?_eq_getElem hi
        have := (forall₂_get hsd2 i _ _ h1 h2).2.2.2
        rw [hget] at this
        cases ha : d.ann with
        | false => rfl
        | true => have := this ha; rw [q.deps_ann _ (List.getElem_mem _)] at this; cases this
    have hs2 := syncDeps_same (fun _ => true) (fresh mach owner ch r1.1) r1.1.deps r1.1
    rw [e]
    exact ⟨hs2.1, hsd.trans hs2.2⟩
  rcases checkSets_cases q st.sets (fun _ h => h) with ⟨h1, h2⟩ | ⟨s, hs, b, h1, h2, h3, h4⟩
  · obtain ⟨a, c⟩ := main (st, .done) h2.symm (by simp) (.refl _) q.sets_ann
    exact ⟨c, .inl ⟨h1, a⟩⟩
  · obtain ⟨a, c⟩ := main _ rfl h2 h4 (by
      rw [h3]
      intro t ht
      obtain ⟨u, hu, rfl⟩ := List.mem_map.1 ht
      split
      · rfl
      · exact q.sets_ann u hu)
    exact ⟨c, .inr ⟨s, hs, b, h1, by rw [a, h3]⟩⟩

theorem countP_map_one {α : Type} {p q : α → Bool} {f : α → α} {l : List α} {a : α} (ha : a ∈ l)
    (hpa : p a = true) (hqa : q (f a) = false) (hle : ∀ x ∈ l, q (f x) = true → p x = true) :
    (l.map f).countP q < l.countP p := by
  induction l with
  | nil => cases ha
  | cons x l ih =>
    rw [List.map_cons, List.countP_cons, List.countP_cons]
    have hrest : (l.map f).countP q ≤ l.countP p := by
      rw [List.countP_map]
      exact List.countP_mono_left fun y hy h => hle y (by simp [hy]) h
    rcases List.mem_cons.1 ha with rfl | ha
    · simp only [hpa, hqa, if_true, Bool.false_eq_true, if_false]; omega
    · have := ih ha fun y hy => hle y (by simp [hy])
      by_cases hq : q (f x) = true
      · simp only [hq, hle x (by simp) hq, if_true]; omega
      · simp only [hq, if_false, Bool.false_eq_true]; omega

theorem idealRun_progress {o mach owner ch} (hdown : o.down > 0) {st : Store} (q : Quiet o mach owner ch st) :
    Quiet o mach owner ch (idealRun o mach owner ch st) ∧
    (pending o mach owner ch st = 0 → pending o mach owner ch (idealRun o mach owner ch st) = 0) ∧
    (pending o mach owner ch st > 0 →
      pending o mach owner ch (idealRun o mach owner ch st) < pending o mach owner ch st) := by
  obtain ⟨hsd, hcase⟩ := idealRun_sets q
  have hdeps : ∀ d ∈ (idealRun o mach owner ch st).deps, d.ann = false := by
    intro d hd
    obtain ⟨i, hi, hget⟩ := List.mem_iff_getElem.1 hd
    have hl := hsd.length_eq
    have h1 : st.deps[i]? = some (st.deps[i]'(hl ▸ hi)) := List.getElem?_eq_getElem _
    have h2 := List.getElem?_eq_getElem hi
    have := (forall₂_get hsd i _ _ h1 h2).2.2.2
    rw [hget] at this
    cases ha : d.ann with
    | false => rfl
    | true => have := this ha; rw [q.deps_ann _ (List.getElem_mem _)] at this; cases this
  rcases hcase with ⟨hskip, hsets⟩ | ⟨s, hs, b, hdec, hsets⟩
  · have hp : pending o mach owner ch (idealRun o mach owner ch st) = pending o mach owner ch st := by
      unfold pending
      rw [hsets]
      exact List.countP_congr fun s _ => by rw [decide_congr hsd s]
    have hz : pending o mach owner ch st = 0 := by
      unfold pending
      rw [List.countP_eq_zero]
      intro s hs; rw [hskip s hs]; simp
    refine ⟨⟨?_, ?_, ?_, hdeps⟩, fun h => by rw [hp]; exact h, fun h => by omega⟩
    · rw [hsets]; exact q.names
    · intro t ht
      rw [hsets] at ht
      obtain ⟨h, hh⟩ := q.limits t ht
      exact ⟨h, limit_iff.2 (by rw [higher_congr hsd t t rfl rfl]; exact limit_iff.1 hh)⟩
    · rw [hsets]; exact q.sets_ann
  · have hlt : pending o mach owner ch (idealRun o mach owner ch st) < pending o mach owner ch st := by
      unfold pending
      rw [hsets]
      refine countP_map_one hs ?_ ?_ ?_
      · rw [hdec]; cases b <;> decide
      · rw [if_pos (by simp)]
        rw [decide_settled hdown hdec _ _ ?_ ?_ rfl rfl]
        · simp
        · exact higher_congr hsd s _ rfl rfl
        · rfl
      · intro x hx hq
        by_cases hn : x.name = s.name
        · have : x = s := List.inj_on_of_nodup_map q.names hx hs hn
          subst this
          rw [hdec]; cases b <;> decide
        · rw [if_neg (by simpa using hn), decide_congr hsd x] at hq
          exact hq
    refine ⟨⟨?_, ?_, ?_, hdeps⟩, fun h => by omega, fun _ => hlt⟩
    · have hnm : (idealRun o mach owner ch st).sets.map (·.name) = st.sets.map (·.name) := by
        rw [hsets, List.map_map]
        refine List.map_congr_left fun t _ => ?_
        simp only [Function.comp]; split <;> rfl
      rw [hnm]; exact q.names
    · intro t ht
      rw [hsets] at ht
      obtain ⟨u, hu, rfl⟩ := List.mem_map.1 ht
      obtain ⟨h, hh⟩ := q.limits u hu
      refine ⟨h, limit_iff.2 ?_⟩
      rw [higher_congr hsd u _ (by split <;> rfl) (by split <;> rfl)]; exact limit_iff.1 hh
    · intro t ht
      rw [hsets] at ht
      obtain ⟨u, hu, rfl⟩ := List.mem_map.1 ht
      split
      · rfl
      · exact q.sets_ann u hu

/-- `k` undisturbed runs -/
def idealRuns (o : Opts) (mach : List FMachine) (owner : String → Option String) (ch : String → List String) : Nat → Store → Store
  | 0, st => st
  | k + 1, st => idealRuns o mach owner ch k (idealRun o mach owner ch st)

theorem idealRuns_spec {o mach owner ch} (hdown : o.down > 0) : ∀ (k : Nat) (st : Store), Quiet o mach owner ch st →
    Quiet o mach owner ch (idealRuns o mach owner ch k st) ∧
    pending o mach owner ch (idealRuns o mach owner ch k st) ≤ pending o mach owner ch st - k := by
  intro k
  induction k with
  | zero => intro st q; exact ⟨q, Nat.le_refl _⟩
  | succ k ih =>
    intro st q
    obtain ⟨q1, h0, h1⟩ := idealRun_progress hdown q
    obtain ⟨q2, h2⟩ := ih _ q1
    refine ⟨q2, ?_⟩
    show pending o mach owner ch (idealRuns o mach owner ch k (idealRun o mach owner ch st)) ≤ _
    by_cases hp : pending o mach owner ch st = 0
    · have := h0 hp; omega
    · have := h1 (by omega); omega

/-- C21: although a run stops at the first set it acts upon, as many undisturbed runs as there are sets (calls succeed,
listers are up to date, machine counts do not change) freeze every set at or above its limit and release every set at or
below the limit minus the margin. -/
theorem C21_converges (o : Opts) (hdown : o.down > 0) (mach : List FMachine) (owner : String → Option String)
    (ch : String → List String) (st : Store) (q : Quiet o mach owner ch st) (k : Nat) (hk : k ≥ st.sets.length) :
    let fin := idealRuns o mach owner ch k st
    ∀ s ∈ fin.sets, ∀ h, Limit o (fresh mach owner ch fin) s h →
      (backing (fresh mach owner ch fin) s ≥ h → s.label = true) ∧
      (backing (fresh mach owner ch fin) s ≤ h - o.down → s.label = false ∧ s.cond = false) := by
  intro fin s hs h hl
  obtain ⟨qf, hp⟩ := idealRuns_spec hdown k st q
  have hle : pending o mach owner ch st ≤ st.sets.length := List.countP_le_length
  have hz : pending o mach owner ch fin = 0 := by show pending o mach owner ch (idealRuns o mach owner ch k st) = 0; omega
  unfold pending at hz
  rw [List.countP_eq_zero] at hz
  have hd := hz s hs
  simp only [ne_eq, decide_not, Bool.not_eq_true, Bool.not_eq_false', decide_eq_true_eq] at hd
  unfold decideSet at hd
  rw [limit_iff.1 hl] at hd
  dsimp only at hd
  rw [← count_eq]
  split at hd
  · cases hd
  · rename_i h1
    split at hd
    · cases hd
    · rename_i h2
      simp only [Bool.and_eq_true, Bool.not_eq_true', decide_eq_true_eq, not_and, Bool.or_eq_true] at h1 h2
      refine ⟨fun hb => ?_, fun hb => ?_⟩
      · cases hlab : s.label with
        | true => rfl
        | false => exact absurd hb (h1 hlab)
      · have := h2 hb
        cases hlab : s.label <;> cases hco : s.cond <;> simp_all

/-- the hypotheses are met by two sets, one overshooting and one frozen without need -/
def exTwo : Store :=
  { sets := [{ name := "a", replicas := 1 }, { name := "b", replicas := 3, label := true, cond := true }], deps := [] }
def exTwoMach : List FMachine := List.replicate 4 { owners := ["a"] } ++ List.replicate 3 { owners := ["b"] }
example : Quiet ⟨2, 1⟩ exTwoMach (fun _ => none) (fun _ => []) exTwo where
  names := by decide
  limits := fun _ _ => ⟨_, .alone rfl⟩
  sets_ann := by intro s hs; simp [exTwo] at hs; rcases hs with rfl | rfl <;> rfl
  deps_ann := by intro d hd; simp [exTwo] at hd
example : (idealRuns ⟨2, 1⟩ exTwoMach (fun _ => none) (fun _ => []) 2 exTwo).sets.map (fun s => (s.label, s.cond)) =
    [(true, true), (false, false)] := by decide +kernel

/-! ### Deployments follow their sets -/

/-- C21: after the state-sync stage with up-to-date listers and no failing call, a deployment carries the freeze label
and condition if one of its sets is frozen, and neither if none is. -/
theorem C21_deployment_follows (v : View) (st : Store) (hdeps : v.deps = st.deps)
    (hnames : (st.deps.map (·.name)).Nodup) :
    ∀ d ∈ (syncDeps (fun _ => true) v v.deps st).1.deps,
      ((∃ n ∈ v.children d.name, ∃ s ∈ v.sets, s.name = n ∧ (s.label = true ∨ s.cond = true)) → d.label = true ∧ d.cond = true) ∧
      ((¬ ∃ n ∈ v.children d.name, ∃ s ∈ v.sets, s.name = n ∧ (s.label = true ∨ s.cond = true)) → d.label = false ∧ d.cond = false) := by
  have frozen_iff : ∀ d : FDep, hasFrozen v d = true ↔
      ∃ n ∈ v.children d.name, ∃ s ∈ v.sets, s.name = n ∧ (s.label = true ∨ s.cond = true) := by
    intro d
    unfold hasFrozen
    simp only [List.any_eq_true, Bool.and_eq_true, beq_iff_eq, Bool.or_eq_true]
  -- one deployment after its treatment
  have two : ∀ (n : String) (f g : FDep → FDep) (st : Store), (∀ d, (f d).name = d.name) → (∃ d ∈ st.deps, d.name = n) →
      (andThen (writeDep (fun _ => true) n f st) fun st => writeDep (fun _ => true) n g st) =
      ({ st with deps := st.deps.map (fun d => if d.name == n then g (f d) else d), calls := st.calls + 2 }, .done) := by
    intro n f g st hf hex
    unfold andThen
    rw [writeDep_ok _ _ _ hex, if_pos rfl]
    dsimp only
    rw [writeDep_ok]
    · dsimp only
      rw [List.map_map]
      congr 2
      refine List.map_congr_left fun d _ => ?_
      by_cases hs : d.name == n
      · simp only [Function.comp, hs, if_true, hf]
      · simp [Function.comp, hs]
    · obtain ⟨t, hs, hn⟩ := hex
      exact ⟨_, List.mem_map.2 ⟨t, hs, rfl⟩, by split <;> simp [hf, hn]⟩
  let post : FDep → FDep := fun d =>
    if hasFrozen v d then { d with label := true, cond := true }
    else if d.label || d.cond then { d with label := false, cond := false, ann := false } else d
  have main : ∀ (l : List FDep) (pre : List FDep) (st : Store), st.deps = pre ++ l → (st.deps.map (·.name)).Nodup →
      (syncDeps (fun _ => true) v l st).1.deps = pre ++ l.map post := by
    intro l
    induction l with
    | nil => intro pre st h _; simpa [syncDeps] using h
    | cons d rest ih =>
      intro pre st h hn
      have hmem : d ∈ st.deps := by rw [h]; simp
      have upd : ∀ f : FDep → FDep, (∀ d, (f d).name = d.name) →
          st.deps.map (fun x => if x.name == d.name then f x else x) = pre ++ f d :: rest := by
        intro f _
        rw [h, List.map_append, List.map_cons]
        rw [h, List.map_append, List.map_cons, List.nodup_append] at hn
        obtain ⟨_, h2, h3⟩ := hn
        rw [List.nodup_cons] at h2
        congr 1
        · conv => rhs; rw [← List.map_id pre]
          refine List.map_congr_left fun x hx => ?_
          rw [if_neg]; · rfl
          have := h3 x.name (List.mem_map.2 ⟨x, hx, rfl⟩) d.name (by simp)
          simpa using this
        · rw [if_pos (by simp)]
          congr 1
          conv => rhs; rw [← List.map_id rest]
          refine List.map_congr_left fun x hx => ?_
          rw [if_neg]; · rfl
          simp only [beq_iff_eq]
          exact fun e => h2.1 (List.mem_map.2 ⟨x, hx, e⟩)
      have upnames : ∀ f : FDep → FDep, (∀ d, (f d).name = d.name) →
          ((st.deps.map (fun x => if x.name == d.name then f x else x)).map (·.name)).Nodup := by
        intro f hf
        rw [List.map_map]
        have : ((fun x : FDep => x.name) ∘ fun x => if x.name == d.name then f x else x) = fun x : FDep => x.name := by
          funext x; simp only [Function.comp]; split
          · exact hf x
          · rfl
        rw [this]; exact hn
      unfold syncDeps
      split
      · rename_i hf
        split
        · rename_i hx
          unfold freezeDep
          rw [two d.name (fun d => { d with cond := true }) (fun d => { d with label := true }) st (fun _ => rfl) ⟨d, hmem, rfl⟩]
          unfold andThen; rw [if_pos rfl]
          rw [ih (pre ++ [{ d with cond := true, label := true }])]
          · rw [List.map_cons, List.append_assoc]
            show _ = pre ++ post d :: rest.map post
            have : post d = { d with cond := true, label := true } := by show (if _ then _ else _) = _; rw [if_pos hf]
            rw [this]; rfl
          · rw [List.append_assoc]
            exact upd (fun d => { d with cond := true, label := true }) fun _ => rfl
          · exact upnames (fun d => { d with cond := true, label := true }) fun _ => rfl
        · rename_i hx
          rw [ih (pre ++ [d]) st (by simpa using h) hn, List.map_cons, List.append_assoc]
          have : post d = d := by
            show (if _ then _ else _) = _
            rw [if_pos hf]
            obtain ⟨n, r, ro, lb, co, an⟩ := d
            simp at hx
            simp [hx]
          rw [this]; rfl
      · rename_i hf
        split
        · rename_i hx
          unfold unfreezeDep
          rw [two d.name (fun d => { d with cond := false }) (fun d => { d with label := false, ann := false }) st (fun _ => rfl) ⟨d, hmem, rfl⟩]
          unfold andThen; rw [if_pos rfl]
          rw [ih (pre ++ [{ d with cond := false, label := false, ann := false }])]
          · rw [List.map_cons, List.append_assoc]
            have : post d = { d with cond := false, label := false, ann := false } := by
              show (if _ then _ else _) = _; rw [if_neg hf, if_pos hx]
            rw [this]; rfl
          · rw [List.append_assoc]
            exact upd (fun d => { d with cond := false, label := false, ann := false }) fun _ => rfl
          · exact upnames (fun d => { d with cond := false, label := false, ann := false }) fun _ => rfl
        · rename_i hx
          rw [ih (pre ++ [d]) st (by simpa using h) hn, List.map_cons, List.append_assoc]
          have : post d = d := by show (if _ then _ else _) = _; rw [if_neg hf, if_neg hx]
          rw [this]; rfl
  intro d hd
  rw [main v.deps [] st (by simpa using hdeps.symm) hnames] at hd
  simp only [List.nil_append, List.mem_map] at hd
  obtain ⟨e, _, rfl⟩ := hd
  have hname : (post e).name = e.name := by show (if _ then _ else _ : FDep).name = _; split; · rfl
                                            · split <;> rfl
  rw [hname, ← frozen_iff]
  refine ⟨fun hf => ?_, fun hf => ?_⟩
  · show (if _ then _ else _ : FDep).label = _ ∧ (if _ then _ else _ : FDep).cond = _
    rw [if_pos hf]; exact ⟨rfl, rfl⟩
  · show (if _ then _ else _ : FDep).label = _ ∧ (if _ then _ else _ : FDep).cond = _
    rw [if_neg hf]
    split
    · exact ⟨rfl, rfl⟩
    · rename_i hx; simpa using hx

/-- a deployment with one frozen set among two -/
example : ((syncDeps (fun _ => true)
    { sets := [{ name := "a", replicas := 1 }, { name := "b", replicas := 1, label := true }],
      deps := [{ name := "d", replicas := 2 }, { name := "e", replicas := 2, label := true, cond := true }],
      children := fun n => if n = "d" then ["a", "b"] else [] }
    [{ name := "d", replicas := 2 }, { name := "e", replicas := 2, label := true, cond := true }]
    { sets := [], deps := [{ name := "d", replicas := 2 }, { name := "e", replicas := 2, label := true, cond := true }] }).1.deps.map
    fun d => (d.label, d.cond)) = [(true, true), (false, false)] := by decide +kernel

/-! ### C56: unfreeze requests -/

/-- C56: with up-to-date listers and no failing call, a set carrying the unfreeze annotation is released and loses the
annotation. -/
theorem C56_set_request (st : Store) :
    ∀ s ∈ (unfreezeAnnotatedSets (fun _ => true) st.sets st).1.sets, s.ann = false ∧
      ∀ t ∈ st.sets, t.name = s.name → t.ann = true → s.label = false ∧ s.cond = false := by
  have main : ∀ (l : List FSet) (cur : Store), (∀ s ∈ l, ∃ t ∈ cur.sets, t.name = s.name) →
      (unfreezeAnnotatedSets (fun _ => true) l cur).1.sets = cur.sets.map (fun s =>
        if l.any (fun t => t.ann && t.name == s.name) then { s with cond := false, label := false, ann := false } else s) := by
    intro l
    induction l with
    | nil => intro cur _; show cur.sets = _; simp
    | cons x rest ih =>
      intro cur hex
      unfold unfreezeAnnotatedSets
      split
      · rename_i hx
        have hw := unfreezeSet_ok x.name cur (hex x (by simp))
        have hres : (unfreezeSet (fun _ => true) x.name cur).2 = .done := by
          unfold unfreezeSet
          rw [writeSet_ok _ _ _ (hex x (by simp))]
          unfold andThen
          rw [if_pos rfl]
          dsimp only
          rw [writeSet_ok]
          obtain ⟨t, ht, hn⟩ := hex x (by simp)
          exact ⟨_, List.mem_map.2 ⟨t, ht, rfl⟩, by split <;> exact hn⟩
        unfold andThen
        rw [if_pos hres, ih, hw.1, List.map_map]
        · refine List.map_congr_left fun s _ => ?_
          simp only [Function.comp]
          by_cases hn : s.name = x.name
          · have hn' : (s.name == x.name) = true := by simpa using hn
            have hn2 : (x.name == s.name) = true := by simpa using hn.symm
            simp only [hn', if_true, List.any_cons, hx, hn2, Bool.and_self, Bool.true_or]
            split <;> rfl
          · have hn' : ¬ (s.name == x.name) = true := by simpa using hn
            have hn2 : (x.name == s.name) = false := by simpa using fun e => hn (by simpa using e.symm)
            rw [if_neg hn']
            simp only [List.any_cons, hn2, Bool.and_false, Bool.false_or]
        · intro y hy
          obtain ⟨t, ht, hn⟩ := hex y (by simp [hy])
          rw [hw.1]
          exact ⟨_, List.mem_map.2 ⟨t, ht, rfl⟩, by split <;> exact hn⟩
      · rename_i hx
        rw [ih cur fun y hy => hex y (by simp [hy])]
        refine List.map_congr_left fun s _ => ?_
        simp only [Bool.not_eq_true] at hx
        simp only [List.any_cons, hx, Bool.false_and, Bool.false_or]
  intro s hs
  rw [main st.sets st fun s hs => ⟨s, hs, rfl⟩] at hs
  obtain ⟨u, hu, rfl⟩ := List.mem_map.1 hs
  by_cases ha : st.sets.any (fun t => t.ann && t.name == u.name) = true
  · rw [if_pos ha]; exact ⟨rfl, fun _ _ _ _ => ⟨rfl, rfl⟩⟩
  · rw [if_neg ha]
    simp only [List.any_eq_true, Bool.and_eq_true, beq_iff_eq, not_exists, not_and] at ha
    refine ⟨?_, fun t ht hn h => absurd hn (ha t ht h)⟩
    cases h : u.ann with
    | false => rfl
    | true => exact absurd rfl (ha u hu h)

theorem annotateSets_ok : ∀ (l : List String) (st : Store), (∀ n ∈ l, ∃ s ∈ st.sets, s.name = n) →
    (annotateSets (fun _ => true) l st).2 = .done ∧ (annotateSets (fun _ => true) l st).1.deps = st.deps ∧
    (annotateSets (fun _ => true) l st).1.sets = st.sets.map (fun s => if s.name ∈ l then { s with ann := true } else s) := by
  intro l
  induction l with
  | nil => intro st _; refine ⟨rfl, rfl, ?_⟩; show st.sets = _; simp
  | cons n rest ih =>
    intro st hex
    rw [annotateSets, writeSet_ok _ _ _ (hex n (by simp))]
    unfold andThen
    rw [if_pos rfl]
    obtain ⟨h1, h2, h3⟩ := ih { st with sets := st.sets.map (fun s => if s.name == n then { s with ann := true } else s), calls := st.calls + 1 } (by
      intro m hm
      obtain ⟨s, hs, hn⟩ := hex m (by simp [hm])
      exact ⟨_, List.mem_map.2 ⟨s, hs, rfl⟩, by split <;> exact hn⟩)
    refine ⟨h1, h2, ?_⟩
    rw [h3]
    dsimp only
    rw [List.map_map]
    refine List.map_congr_left fun s _ => ?_
    by_cases hs : s.name = n
    · subst hs; simp [Function.comp]
    · simp [Function.comp, hs]

theorem unfreezeDep_deps (n) (st : Store) (h : ∃ s ∈ st.deps, s.name = n) :
    (unfreezeDep (fun _ => true) n st).1.deps =
      st.deps.map (fun d => if d.name == n then { d with cond := false, label := false, ann := false } else d) := by
  unfold unfreezeDep
  rw [writeDep_ok _ _ _ h]
  unfold andThen
  rw [if_pos rfl]
  dsimp only
  rw [writeDep_ok]
  · dsimp only
    rw [List.map_map]
    refine List.map_congr_left fun s _ => ?_
    by_cases hs : s.name == n <;> simp [Function.comp, hs]
  · obtain ⟨s, hs, hn⟩ := h
    exact ⟨_, List.mem_map.2 ⟨s, hs, rfl⟩, by split <;> exact hn⟩

theorem annDeps_ok (v : View) : ∀ (l : List FDep) (st : Store), (∀ d ∈ l, ∃ e ∈ st.deps, e.name = d.name) →
    (∀ d ∈ l, ∀ n ∈ v.children d.name, ∃ s ∈ st.sets, s.name = n) →
    (unfreezeAnnotatedDeps (fun _ => true) v l st).1.sets = st.sets.map (fun s =>
      if l.any (fun d => d.ann && decide (s.name ∈ v.children d.name)) then { s with ann := true } else s) ∧
    (unfreezeAnnotatedDeps (fun _ => true) v l st).1.deps = st.deps.map (fun e =>
      if l.any (fun d => d.ann && d.name == e.name) then { e with cond := false, label := false, ann := false } else e) := by
  intro l
  induction l with
  | nil => intro st _ _; refine ⟨?_, ?_⟩ <;> simp [unfreezeAnnotatedDeps]
  | cons d rest ih =>
    intro st hd hs
    rw [unfreezeAnnotatedDeps]
    split
    · rename_i hann
      have hex := hd d (by simp)
      have h0 := unfreezeDep_res d.name st hex
      have hdeps := unfreezeDep_deps d.name st hex
      have hsets := sets_unfreezeDep (fun _ => true) d.name st
      unfold andThen
      rw [if_pos h0]
      obtain ⟨a1, a2, a3⟩ := annotateSets_ok (v.children d.name) (unfreezeDep (fun _ => true) d.name st).1 (by
        rw [hsets]; exact hs d (by simp))
      dsimp only
      rw [if_pos a1]
      obtain ⟨b1, b2⟩ := ih (annotateSets (fun _ => true) (v.children d.name) (unfreezeDep (fun _ => true) d.name st).1).1 (by
          intro x hx
          obtain ⟨e, he, hn⟩ := hd x (by simp [hx])
          rw [a2, hdeps]
          exact ⟨_, List.mem_map.2 ⟨e, he, rfl⟩, by split <;> exact hn⟩) (by
          intro x hx n hn
          obtain ⟨s, hs1, hs2⟩ := hs x (by simp [hx]) n hn
          rw [a3, hsets]
          exact ⟨_, List.mem_map.2 ⟨s, hs1, rfl⟩, by split <;> exact hs2⟩)
      rw [b1, b2, a2, a3, hsets, hdeps, List.map_map, List.map_map]
      refine ⟨List.map_congr_left fun s _ => ?_, List.map_congr_left fun e _ => ?_⟩
      · by_cases h : s.name ∈ v.children d.name
        · simp [Function.comp, h, hann]
        · simp [Function.comp, h]
      · by_cases h : e.name = d.name
        · simp [Function.comp, h, hann]
        · have h' : ¬ d.name = e.name := fun x => h x.symm
          simp [Function.comp, h, h']
    · rename_i hann
      obtain ⟨b1, b2⟩ := ih st (fun x hx => hd x (by simp [hx])) (fun x hx => hs x (by simp [hx]))
      rw [b1, b2]
      simp [hann]

/-- C56: with up-to-date listers and no failing call, the last two stages release a deployment carrying the unfreeze
annotation and all its sets, and remove the annotation everywhere. -/
theorem C56_deployment_request (v : View) (st : Store) (hv : v.deps = st.deps)
    (hch : ∀ d ∈ st.deps, ∀ n ∈ v.children d.name, ∃ s ∈ st.sets, s.name = n) :
    let st3 := (unfreezeAnnotatedDeps (fun _ => true) v v.deps st).1
    let st4 := (unfreezeAnnotatedSets (fun _ => true) st3.sets st3).1
    (∀ s ∈ st4.sets, s.ann = false ∧
      ∀ d ∈ st.deps, d.ann = true → s.name ∈ v.children d.name → s.label = false ∧ s.cond = false) ∧
    (∀ e ∈ st3.deps, e.ann = false ∧ ∀ d ∈ st.deps, d.ann = true → d.name = e.name → e.label = false ∧ e.cond = false) := by
  rw [hv]
  dsimp only
  obtain ⟨h1, h2⟩ := annDeps_ok v st.deps st (fun d hd => ⟨d, hd, rfl⟩) hch
  refine ⟨fun s hs => ?_, fun e he => ?_⟩
  · have hreq := C56_set_request (unfreezeAnnotatedDeps (fun _ => true) v st.deps st).1 s hs
    refine ⟨hreq.1, fun d hd hann hmem => ?_⟩
    obtain ⟨t, ht, hn⟩ := hch d hd s.name hmem
    refine hreq.2 { t with ann := true } ?_ hn rfl
    rw [h1]
    refine List.mem_map.2 ⟨t, ht, ?_⟩
    rw [if_pos]
    rw [List.any_eq_true]
    exact ⟨d, hd, by rw [hann, hn]; simpa using hmem⟩
  · rw [h2] at he
    obtain ⟨x, hx, hxe⟩ := List.mem_map.1 he
    by_cases hany : st.deps.any (fun d => d.ann && d.name == x.name) = true
    · rw [if_pos hany] at hxe
      subst hxe
      exact ⟨rfl, fun _ _ _ _ => ⟨rfl, rfl⟩⟩
    · rw [if_neg hany] at hxe
      subst hxe
      rw [List.any_eq_true] at hany
      refine ⟨?_, fun d hd hann hn => absurd ⟨d, hd, by rw [hann, hn]; simp⟩ hany⟩
      cases ha : x.ann with
      | false => rfl
      | true => exact absurd ⟨x, hx, by rw [ha]; simp⟩ hany

/-- a frozen deployment with two frozen sets, asked to unfreeze -/
example :
    let st : Store := { sets := [{ name := "a", replicas := 1, label := true, cond := true }, { name := "b", replicas := 1, label := true }],
                        deps := [{ name := "d", replicas := 2, label := true, cond := true, ann := true }] }
    let v : View := { sets := st.sets, deps := st.deps, children := fun n => if n = "d" then ["a", "b"] else [] }
    let st3 := (unfreezeAnnotatedDeps (fun _ => true) v v.deps st).1
    let st4 := (unfreezeAnnotatedSets (fun _ => true) st3.sets st3).1
    st4.sets.map (fun s => (s.label, s.cond, s.ann)) = [(false, false, false), (false, false, false)] ∧
    st4.deps.map (fun d => (d.label, d.cond, d.ann)) = [(false, false, false)] := by decide +kernel

/-- C56 fails when a call fails: the request on a deployment is removed before it is passed on to the sets, so one
failing write loses it – the set stays frozen, no annotation is left anywhere, and the next undisturbed runs freeze the
deployment again. -/
theorem C56_request_lost_false :
    ∃ (st : Store) (ok : Nat → Bool) (owner : String → Option String) (ch : String → List String) (mach : List FMachine),
      (∃ d ∈ st.deps, d.ann = true) ∧
      let v := fresh mach owner ch
      let st1 := (unfreezeAnnotatedDeps ok (v st) st.deps st).1
      let st2 := (unfreezeAnnotatedSets ok st1.sets st1).1
      let st3 := idealRuns ⟨2, 1⟩ mach owner ch 3 st2
      (∀ d ∈ st2.deps, d.ann = false) ∧ (∀ s ∈ st2.sets, s.ann = false ∧ s.label = true) ∧
      (∀ d ∈ st3.deps, d.label = true ∧ d.cond = true) ∧ (∀ s ∈ st3.sets, s.label = true) := by
  refine ⟨{ sets := [{ name := "s", replicas := 1, label := true, cond := true }],
            deps := [{ name := "d", replicas := 1, label := true, cond := true, ann := true }] },
    fun n => n != 2, fun _ => some "d", fun _ => ["s"], List.replicate 4 { owners := ["s"] }, ?_⟩
  decide +kernel

end MCM.Freeze
