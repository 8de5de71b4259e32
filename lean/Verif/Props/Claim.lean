import Verif.Model.Claim
/-!
# C06 – ownership claims

Specification vocabulary: `ControlledBy o u`, `Orphan o`; effects of a claim run are the live re-check and the
two kinds of patches.
-/
namespace MCM.Claim
open MCM

/-! ## Independent specification -/

/-- some owner reference of `o` names `u` as its controller -/
def ControlledBy (o : Obj) (u : String) : Prop := ⟨u, true⟩ ∈ o.owners
/-- no owner reference of `o` is a controller reference -/
def Orphan (o : Obj) : Prop := ∀ r ∈ o.owners, r.controller = false
/-- at most one controlling owner (what the API server enforces on stored objects) -/
def OneController (o : Obj) : Prop := (o.owners.filter (fun r => r.controller)).length ≤ 1
/-- the live object of the controller exists, is the same object, and is not being deleted -/
def LiveOk (self : Ctrl) (live : Option Ctrl) : Prop :=
  ∃ f, live = some f ∧ f.uid = self.uid ∧ f.deleting = false
/-- what may be adopted, and by whom -/
def Adoptable (self : Ctrl) (sel : SMap → Bool) (live : Option Ctrl) (o : Obj) : Prop :=
  Orphan o ∧ o.deleting = false ∧ sel o.labels = true ∧ self.deleting = false ∧ LiveOk self live
/-- what has to be released -/
def Releasable (self : Ctrl) (sel : SMap → Bool) (o : Obj) : Prop :=
  ControlledBy o self.uid ∧ sel o.labels = false ∧ self.deleting = false

/-! ## The model's notions agree with the specification -/

theorem controllerOf_none (o : Obj) : controllerOf o = none ↔ Orphan o := by
  simp [controllerOf, Orphan]

theorem two_le_filter {l : List OwnerRef} {a b : OwnerRef} (ha : a ∈ l) (hb : b ∈ l) (hca : a.controller = true)
    (hcb : b.controller = true) (h : (l.filter (fun r => r.controller)).length ≤ 1) : a = b := by
  have h1 : a ∈ l.filter (fun r => r.controller) := List.mem_filter.2 ⟨ha, hca⟩
  have h2 : b ∈ l.filter (fun r => r.controller) := List.mem_filter.2 ⟨hb, hcb⟩
  generalize l.filter (fun r => r.controller) = f at *
  match f, h with
  | [], _ => simp at h1
  | [x], _ => simp at h1 h2; rw [h1, h2]

theorem controllerOf_some (o : Obj) (h : OneController o) (u : String) :
    controllerOf o = some u ↔ ControlledBy o u := by
  unfold controllerOf ControlledBy
  constructor
  · intro hu
    simp only [Option.map_eq_some_iff] at hu
    obtain ⟨r, hr, hru⟩ := hu
    have h1 := List.mem_of_find?_eq_some hr
    have h2 := List.find?_some hr
    rcases r with ⟨ru, rc⟩
    simp only at h2 hru
    subst h2; subst hru; exact h1
  · intro hm
    cases hf : o.owners.find? (·.controller) with
    | none =>
      rw [List.find?_eq_none] at hf
      have := hf _ hm
      simp at this
    | some r =>
      have h1 := List.mem_of_find?_eq_some hf
      have h2 := List.find?_some hf
      have := two_le_filter h1 hm h2 rfl h
      subst this
      rfl

theorem canAdoptFunc_iff (self : Ctrl) (live : Option Ctrl) : canAdoptFunc self live = true ↔ LiveOk self live := by
  unfold canAdoptFunc LiveOk
  cases live <;> simp

/-- the memo of `canAdoptOnce` only ever holds the value of the check -/
def MemoOk (self : Ctrl) (live : Option Ctrl) (memo : Option Bool) : Prop :=
  ∀ b, memo = some b → b = canAdoptFunc self live

theorem claimObject_memo (self sel live ans memo o) (h : MemoOk self live memo) :
    MemoOk self live (claimObject self sel live ans memo o).memo := by
  unfold claimObject canAdopt
  split
  · (repeat' split) <;> simpa using h
  · split
    · exact h
    · split
      · exact h
      · cases memo with
        | some b =>
          have := h b rfl
          simp only
          (repeat' split) <;> (intro c hc; simp at hc; rw [← hc]; exact this)
        | none =>
          simp only
          (repeat' split) <;> (intro c hc; simp at hc; rw [← hc])

/-- one object: complete description of what is done and claimed -/
theorem claimObject_spec (self sel live ans memo) (o : Obj) (h : OneController o) (hm : MemoOk self live memo) :
    let r := claimObject self sel live ans memo o
    (Releasable self sel o ∧ r.effs = [.release o] ∧ r.claimed = false)
    ∨ (Adoptable self sel live o ∧ (r.claimed = true ↔ ans o = none) ∧
        ((memo = some true ∧ r.effs = [.adopt o]) ∨ (memo = none ∧ r.effs = [.recheck true, .adopt o])) ∧
        r.memo = some true)
    ∨ (¬ Releasable self sel o ∧ ¬ Adoptable self sel live o ∧
        (r.claimed = true ↔ ControlledBy o self.uid ∧ sel o.labels = true) ∧
        (r.effs = [] ∨ r.effs = [.recheck false])) := by
  intro r
  cases hc : controllerOf o with
  | some u =>
    have hcb := (controllerOf_some o h u).1 hc
    have hno : ¬ Orphan o := by rw [← controllerOf_none, hc]; simp
    have hnad : ¬ Adoptable self sel live o := fun hh => hno hh.1
    have hself : ControlledBy o self.uid ↔ u = self.uid := by
      rw [← controllerOf_some o h, hc]; simp
    by_cases hu : u = self.uid
    · by_cases hs : sel o.labels = true
      · right; right
        refine ⟨fun hh => absurd hh.2.1 (by simp [hs]), hnad, ?_, ?_⟩ <;> simp [r, claimObject, hc, hu, hs, hself]
      · simp at hs
        by_cases hd : self.deleting = true
        · right; right
          refine ⟨fun hh => by have := hh.2.2; simp [hd] at this, hnad, ?_, ?_⟩ <;> simp [r, claimObject, hc, hu, hs, hd]
        · simp at hd
          left
          refine ⟨⟨hself.2 hu, hs, hd⟩, ?_, ?_⟩ <;>
            (simp only [r, claimObject, hc, hu, hs, hd]; simp only [ne_eq, not_true, if_false, Bool.false_eq_true]; split <;> rfl)
    · right; right
      refine ⟨fun hh => hu (hself.1 hh.1), hnad, ?_, ?_⟩ <;> simp [r, claimObject, hc, hu, hself]
  | none =>
    have hor := (controllerOf_none o).1 hc
    have hself : ¬ ControlledBy o self.uid := by
      rw [← controllerOf_some o h, hc]; simp
    have hnre : ¬ Releasable self sel o := fun hh => hself hh.1
    by_cases h1 : (self.deleting || !sel o.labels) = true
    · right; right
      refine ⟨hnre, ?_, ?_, ?_⟩
      · intro hh; rw [hh.2.2.1, hh.2.2.2.1] at h1; simp at h1
      · simp only [r, claimObject, hc, h1, if_true]; simp [hself]
      · simp only [r, claimObject, hc, h1, if_true]; simp
    · by_cases h2 : o.deleting = true
      · right; right
        refine ⟨hnre, ?_, ?_, ?_⟩
        · intro hh; have := hh.2.1; simp [h2] at this
        · simp only [r, claimObject, hc, h1, h2, if_true]; simp [hself]
        · simp only [r, claimObject, hc, h1, h2, if_true]; simp
      · simp at h1 h2
        cases memo with
        | some b =>
          have hb := hm b rfl
          cases b with
          | false =>
            right; right
            refine ⟨hnre, ?_, ?_, ?_⟩
            · intro hh; have := (canAdoptFunc_iff self live).2 hh.2.2.2.2; rw [this] at hb; simp at hb
            · simp [r, claimObject, hc, h1, h2, canAdopt, hself]
            · simp [r, claimObject, hc, h1, h2, canAdopt]
          | true =>
            right; left
            refine ⟨⟨hor, h2, h1.2, h1.1, (canAdoptFunc_iff self live).1 hb.symm⟩, ?_⟩
            simp only [r, claimObject, hc, h1, h2, canAdopt]
            simp only [Bool.not_true, Bool.or_false, Bool.false_eq_true, if_false]
            cases ha : ans o with
            | none => simp
            | some e => cases e <;> simp
        | none =>
          cases hb : canAdoptFunc self live with
          | false =>
            right; right
            refine ⟨hnre, ?_, ?_, ?_⟩
            · intro hh; have := (canAdoptFunc_iff self live).2 hh.2.2.2.2; rw [this] at hb; simp at hb
            · simp [r, claimObject, hc, h1, h2, canAdopt, hself, hb]
            · simp [r, claimObject, hc, h1, h2, canAdopt, hb]
          | true =>
            right; left
            refine ⟨⟨hor, h2, h1.2, h1.1, (canAdoptFunc_iff self live).1 hb⟩, ?_⟩
            simp only [r, claimObject, hc, h1, h2, canAdopt, hb]
            simp only [Bool.not_true, Bool.or_false, Bool.false_eq_true, if_false]
            cases ha : ans o with
            | none => simp
            | some e => cases e <;> simp

/-! ## C06 – decisions of a claim run -/

/-- The claim decisions, for a whole run over any list of (cached) objects with any API answers: the claimed objects are
exactly the matching objects already controlled by us plus the adoptable ones whose adoption patch succeeded; a release
patch is sent exactly for objects we control that no longer match (unless we are being deleted); an adoption patch is
sent exactly for adoptable objects. -/
theorem C06_claim_decisions (self : Ctrl) (sel : SMap → Bool) (live : Option Ctrl) (ans : Obj → Option ApiErr)
    (objs : List Obj) (hv : ∀ o ∈ objs, OneController o) :
    let r := claimAll self sel live ans none objs
    (∀ o, o ∈ r.1 ↔ o ∈ objs ∧ ((ControlledBy o self.uid ∧ sel o.labels = true)
                                  ∨ (Adoptable self sel live o ∧ ans o = none)))
    ∧ (∀ o, Eff.release o ∈ r.2.2 ↔ o ∈ objs ∧ Releasable self sel o)
    ∧ (∀ o, Eff.adopt o ∈ r.2.2 ↔ o ∈ objs ∧ Adoptable self sel live o) := by
  suffices H : ∀ memo, MemoOk self live memo → let r := claimAll self sel live ans memo objs
      (∀ o, o ∈ r.1 ↔ o ∈ objs ∧ ((ControlledBy o self.uid ∧ sel o.labels = true)
                                  ∨ (Adoptable self sel live o ∧ ans o = none)))
      ∧ (∀ o, Eff.release o ∈ r.2.2 ↔ o ∈ objs ∧ Releasable self sel o)
      ∧ (∀ o, Eff.adopt o ∈ r.2.2 ↔ o ∈ objs ∧ Adoptable self sel live o) from
    H none (fun b hb => by simp at hb)
  induction objs with
  | nil => intro memo _; simp [claimAll]
  | cons x xs ih =>
    intro memo hm
    have ih' := ih (fun o ho => hv o (by simp [ho])) _ (claimObject_memo self sel live ans memo x hm)
    have hs := claimObject_spec self sel live ans memo x (hv x (by simp)) hm
    simp only [claimAll] at *
    generalize claimObject self sel live ans memo x = r at *
    generalize claimAll self sel live ans r.memo xs = q at *
    obtain ⟨i1, i2, i3⟩ := ih'
    have excl : ∀ o, Adoptable self sel live o → ¬ ControlledBy o self.uid := by
      intro o ha hc; have := ha.1 _ hc; simp at this
    have excl2 : ∀ o, Releasable self sel o → sel o.labels = true → False := by
      intro o ha hc; have := ha.2.1; simp [hc] at this
    refine ⟨fun o => ?_, fun o => ?_, fun o => ?_⟩
    · have h1 : o ∈ (if r.claimed = true then x :: q.1 else q.1) ↔ (o = x ∧ r.claimed = true) ∨ o ∈ q.1 := by
        split <;> simp_all
      rw [h1, i1]
      by_cases hox : o = x
      · subst hox
        rcases hs with ⟨a, b, c⟩ | ⟨a, b, c⟩ | ⟨a, b, c, d⟩
        · have := excl o
          have := excl2 o a
          have := a.1
          simp only [c]
          grind
        · have := excl o a
          clear i1 i2 i3 ih h1
          grind
        · clear i1 i2 i3 ih h1
          grind
      · simp [hox]
    · rw [List.mem_append, i2]
      by_cases hox : o = x
      · subst hox
        rcases hs with ⟨a, b, c⟩ | ⟨a, b, c, _⟩ | ⟨a, b, c, d⟩
        · simp [a, b]
        · have hnr : ¬ Releasable self sel o := fun hh => excl o a hh.1
          rcases c with ⟨_, c⟩ | ⟨_, c⟩ <;> simp [c, hnr]
        · rcases d with d | d <;> simp [d, a]
      · have : Eff.release o ∉ r.effs := by
          rcases hs with ⟨a, b, c⟩ | ⟨a, b, c, _⟩ | ⟨a, b, c, d⟩
          · simp [b, hox]
          · rcases c with ⟨_, c⟩ | ⟨_, c⟩ <;> simp [c]
          · rcases d with d | d <;> simp [d]
        simp [this, hox]
    · rw [List.mem_append, i3]
      by_cases hox : o = x
      · subst hox
        rcases hs with ⟨a, b, c⟩ | ⟨a, b, c, _⟩ | ⟨a, b, c, d⟩
        · have hnr : ¬ Adoptable self sel live o := fun hh => excl o hh a.1
          simp [b, hnr]
        · rcases c with ⟨_, c⟩ | ⟨_, c⟩ <;> simp [c, a]
        · rcases d with d | d <;> simp [d, b]
      · have : Eff.adopt o ∉ r.effs := by
          rcases hs with ⟨a, b, c⟩ | ⟨a, b, c, _⟩ | ⟨a, b, c, d⟩
          · simp [b]
          · rcases c with ⟨_, c⟩ | ⟨_, c⟩ <;> simp [c, hox]
          · rcases d with d | d <;> simp [d]
        simp [this, hox]

example : let objs := [{ name := "m", uid := "1", labels := [("a","b")] : Obj },
                       { name := "n", uid := "2", owners := [⟨"me", true⟩] }]
    (∀ o ∈ objs, OneController o) ∧
    (claimAll ⟨"me", false⟩ (fun l => l.get "a" = "b") (some ⟨"me", false⟩) (fun _ => none) none objs).2.2
      = [.recheck true, .adopt { name := "m", uid := "1", labels := [("a","b")] },
         .release { name := "n", uid := "2", owners := [⟨"me", true⟩] }] := by
  refine ⟨by simp [OneController], by decide⟩

/-- An object controlled by somebody else is neither claimed nor patched, whatever else is in the list. -/
theorem C06_foreign_objects_untouched (self : Ctrl) (sel : SMap → Bool) (live : Option Ctrl) (ans : Obj → Option ApiErr)
    (objs : List Obj) (hv : ∀ o ∈ objs, OneController o) (o : Obj) (ho : o ∈ objs) (u : String)
    (hu : ControlledBy o u) (hne : u ≠ self.uid) :
    let r := claimAll self sel live ans none objs
    o ∉ r.1 ∧ Eff.adopt o ∉ r.2.2 ∧ Eff.release o ∉ r.2.2 := by
  have h := C06_claim_decisions self sel live ans objs hv
  have hno : ¬ Orphan o := fun hh => by have := hh _ hu; simp at this
  have hns : ¬ ControlledBy o self.uid := by
    rw [← controllerOf_some o (hv o ho)]
    rw [← controllerOf_some o (hv o ho)] at hu
    rw [hu]; simp [hne]
  refine ⟨?_, ?_, ?_⟩
  · rw [h.1]; rintro ⟨_, hh | hh⟩
    · exact hns hh.1
    · exact hno hh.1.1
  · rw [h.2.2]; rintro ⟨_, hh⟩; exact hno hh.1
  · rw [h.2.1]; rintro ⟨_, hh⟩; exact hns hh.1

/-- Every adoption patch is preceded, in the same run, by a successful uncached check of the controller itself, and this
check is made at most once per run. -/
theorem C06_adoption_after_live_check (self : Ctrl) (sel : SMap → Bool) (live : Option Ctrl) (ans : Obj → Option ApiErr)
    (objs : List Obj) (hv : ∀ o ∈ objs, OneController o) :
    let effs := (claimAll self sel live ans none objs).2.2
    (∀ pre post o, effs = pre ++ Eff.adopt o :: post → Eff.recheck true ∈ pre)
    ∧ (effs.filter (fun e => match e with | .recheck _ => true | _ => false)).length ≤ 1 := by
  suffices H : ∀ memo, MemoOk self live memo → let effs := (claimAll self sel live ans memo objs).2.2
      (∀ pre post o, effs = pre ++ Eff.adopt o :: post → memo = some true ∨ Eff.recheck true ∈ pre)
      ∧ (effs.filter (fun e => match e with | .recheck _ => true | _ => false)).length ≤ (if memo.isSome then 0 else 1) by
    have := H none (fun b hb => by simp at hb)
    refine ⟨fun pre post o h => ?_, by simpa using this.2⟩
    simpa using this.1 pre post o h
  induction objs with
  | nil => intro memo _; simp [claimAll]
  | cons x xs ih =>
    intro memo hm
    have hm' := claimObject_memo self sel live ans memo x hm
    have ih' := ih (fun o ho => hv o (by simp [ho])) _ hm'
    have hs := claimObject_spec self sel live ans memo x (hv x (by simp)) hm
    have hsame : memo.isSome → (claimObject self sel live ans memo x).memo = memo := by
      intro h
      obtain ⟨b, rfl⟩ := Option.isSome_iff_exists.1 h
      unfold claimObject canAdopt
      (repeat' split) <;> simp_all
    have hnone : memo = none → ((claimObject self sel live ans memo x).effs = [.recheck false] ∨
        (∃ o, (claimObject self sel live ans memo x).effs = [.recheck true, .adopt o])) →
        (claimObject self sel live ans memo x).memo.isSome := by
      intro h; subst h
      unfold claimObject canAdopt
      (repeat' split) <;> simp_all
    have hrel : ∀ o, (claimObject self sel live ans memo x).effs = [.release o] →
        (claimObject self sel live ans memo x).memo = memo := by
      intro o
      clear hnone hsame hs ih' hm' ih hm hv
      unfold claimObject canAdopt
      cases memo <;> ((repeat' split) <;> simp_all <;> grind)
    have hnil : (claimObject self sel live ans memo x).effs = [] →
        (claimObject self sel live ans memo x).memo = memo := by
      clear hrel hnone hsame hs ih' hm' ih hm hv
      unfold claimObject canAdopt
      cases memo <;> ((repeat' split) <;> simp_all <;> grind)
    have hrf : (claimObject self sel live ans memo x).effs = [.recheck false] → memo = none ∧
        (claimObject self sel live ans memo x).memo = some false := by
      clear hrel hnil hnone hsame hs ih' hm' ih hm hv
      unfold claimObject canAdopt
      cases memo <;> ((repeat' split) <;> simp_all <;> grind)
    simp only [claimAll] at *
    generalize claimObject self sel live ans memo x = r at *
    generalize claimAll self sel live ans r.memo xs = q at *
    obtain ⟨i1, i2⟩ := ih'
    refine ⟨fun pre post o h => ?_, ?_⟩
    · rw [List.append_eq_append_iff] at h
      rcases h with ⟨a, h1, h2⟩ | ⟨a, h1, h2⟩
      · rcases i1 a post o h2 with h3 | h3
        · rcases hs with ⟨_, b, _⟩ | ⟨_, _, c, _⟩ | ⟨_, _, _, d⟩
          · left; rw [← hrel _ b]; exact h3
          · rcases c with ⟨c, _⟩ | ⟨_, c⟩
            · exact Or.inl c
            · right; rw [h1, c]; simp
          · rcases d with d | d
            · left; rw [← hnil d]; exact h3
            · have := hrf d; rw [this.2] at h3; simp at h3
        · right; rw [h1]; simp [h3]
      · rcases hs with ⟨_, b, _⟩ | ⟨_, _, c, _⟩ | ⟨_, _, _, d⟩
        · rw [b] at h1
          match pre, a, h1, h2 with
          | [], [], _, h2 => 
            rcases i1 [] post o (by simpa using h2.symm) with h3 | h3
            · left; rw [← hrel _ b]; exact h3
            · simp at h3
          | [], y :: ys, h1, h2 => simp at h1 h2; rw [← h1.1] at h2; simp at h2
          | [p], [], h1, h2 =>
            rcases i1 [] post o (by simpa using h2.symm) with h3 | h3
            · left; rw [← hrel _ b]; exact h3
            · simp at h3
          | [p], y :: ys, h1, h2 => simp at h1
          | p :: p' :: ps, a, h1, h2 => simp at h1
        · rcases c with ⟨c, _⟩ | ⟨_, c⟩
          · exact Or.inl c
          · right
            rw [c] at h1
            match pre, h1 with
            | [], h1 => 
              simp at h1; rw [← h1] at h2; simp at h2
            | p :: ps, h1 => simp at h1; simp [h1.1]
        · rcases d with d | d
          · rw [d] at h1
            simp at h1
            rw [h1.2] at h2
            rcases i1 [] post o (by simpa using h2.symm) with h3 | h3
            · left; rw [← hnil d]; exact h3
            · simp at h3
          · have := hrf d
            rw [d] at h1
            match pre, a, h1, h2 with
            | [], y :: ys, h1, h2 => simp at h1 h2; rw [← h1.1] at h2; simp at h2
            | [p], [], h1, h2 =>
              rcases i1 [] post o (by simpa using h2.symm) with h3 | h3
              · rw [this.2] at h3; simp at h3
              · simp at h3
            | [p], y :: ys, h1, h2 => simp at h1
            | p :: p' :: ps, a, h1, h2 => simp at h1
    · rw [List.filter_append, List.length_append]
      cases memo with
      | some b =>
        have h1 := hsame rfl
        rw [h1] at i2
        simp only [Option.isSome_some, if_true] at i2 ⊢
        rcases hs with ⟨_, e, _⟩ | ⟨_, _, c, _⟩ | ⟨_, _, _, d⟩
        · rw [e]; simpa using i2
        · rcases c with ⟨_, c⟩ | ⟨c, _⟩
          · rw [c]; simpa using i2
          · simp at c
        · rcases d with d | d
          · rw [d]; simpa using i2
          · have := hrf d; simp at this
      | none =>
        simp only [Option.isSome_none, Bool.false_eq_true, if_false]
        rcases hs with ⟨_, e, _⟩ | ⟨_, _, c, hc⟩ | ⟨_, _, _, d⟩
        · rw [hrel _ e] at i2; rw [e]; simpa using i2
        · rcases c with ⟨c, _⟩ | ⟨_, c⟩
          · simp at c
          · rw [hc] at i2; rw [c]; simp only [Option.isSome_some, if_true] at i2; exact Nat.add_le_add_left i2 1
        · rcases d with d | d
          · rw [hnil d] at i2; rw [d]; simpa using i2
          · have := hrf d; rw [this.2] at i2; rw [d]; simp only [Option.isSome_some, if_true] at i2; exact Nat.add_le_add_left i2 1

/-! ## C06 – interleavings of several controllers -/

theorem applyPatch_other (s : Store) (name uid : String) (doc) (n : String) (h : n ≠ name) :
    (applyPatch s name uid doc).1 n = s n := by
  unfold applyPatch; split
  · rfl
  · split <;> simp [h]

theorem applyPatch_same (s : Store) (name uid : String) (doc) :
    (applyPatch s name uid doc).1 name = s name ∨
    ∃ o, s name = some o ∧ o.uid = uid ∧ (applyPatch s name uid doc).1 name = some { o with owners := doc.map (·.ref) } := by
  unfold applyPatch; split
  · exact Or.inl rfl
  · rename_i o h
    split
    · exact Or.inl rfl
    · rename_i hu
      right; exact ⟨o, h, by simpa using hu, by simp [mergeOwners]⟩

def StoreOk (s : Store) : Prop := ∀ n o, s n = some o → OneController o

theorem applyPatch_ok (self : Ctrl) (s : Store) (name uid : String) (doc) (hd : doc = adoptDoc self ∨ doc = releaseDoc self)
    (h : StoreOk s) : StoreOk (applyPatch s name uid doc).1 := by
  intro n o ho
  by_cases hn : n = name
  · subst hn
    rcases applyPatch_same s n uid doc with h1 | ⟨o', _, _, h2⟩
    · rw [h1] at ho; exact h n o ho
    · rw [h2] at ho; simp at ho; subst ho
      rcases hd with rfl | rfl <;> simp [OneController, adoptDoc, releaseDoc]
  · rw [applyPatch_other _ _ _ _ _ hn] at ho; exact h n o ho

theorem applyEffs_ok (self : Ctrl) (effs : List Eff) : ∀ s, StoreOk s → StoreOk (applyEffs self s effs) := by
  induction effs with
  | nil => intro s h; exact h
  | cons e es ih =>
    intro s h
    cases e with
    | recheck b => exact ih s h
    | adopt o => exact ih _ (applyPatch_ok self s _ _ _ (Or.inl rfl) h)
    | release o => exact ih _ (applyPatch_ok self s _ _ _ (Or.inr rfl) h)

/-- At every point of every interleaving of any number of controllers working from arbitrarily stale caches, lost
requests, and arbitrary edits by others, every stored object has at most one controlling owner. -/
theorem C06_at_most_one_controller (s : Store) (hs : ∀ n o, s n = some o → OneController o) (ops : List Op) :
    ∀ n o, run s ops n = some o → OneController o := by
  suffices StoreOk (run s ops) from this
  induction ops generalizing s with
  | nil => exact hs
  | cons op ops ih =>
    refine ih (step s op) ?_
    cases op with
    | claim self sel live view lost =>
      simp only [step]
      split
      · exact hs
      · exact applyEffs_ok _ _ _ hs
    | put o =>
      simp only [step]
      split
      · rename_i hv
        intro n o' h
        simp only at h
        split at h
        · simp at h; subst h; simpa [validOwners, OneController] using hv
        · exact hs n o' h
      · exact hs
    | remove name =>
      intro n o h
      simp only [step] at h
      split at h
      · simp at h
      · exact hs n o h

example : ∃ s : Store, (∀ n o, s n = some o → OneController o) ∧ s "m" ≠ none :=
  ⟨fun n => if n = "m" then some { name := "m", uid := "1", owners := [⟨"x", true⟩, ⟨"y", false⟩] } else none,
   by intro n o h; simp only at h; split at h <;> simp at h; subst h; simp [OneController], by simp⟩

/-- the claim reaches the API server before anybody else changed the object: the controller's cached view is current -/
def Fresh (s : Store) : Op → Prop
  | .claim _ _ _ view _ => s view.name = some view
  | _ => True

def FreshRun : Store → List Op → Prop
  | _, [] => True
  | s, op :: ops => Fresh s op ∧ FreshRun (step s op) ops

/-- only claims, no foreign edits -/
def OnlyClaims (ops : List Op) : Prop := ∀ op ∈ ops, match op with | .claim .. => True | _ => False

/-- **Partial** (the property asks for stale caches too, where it is false: `C06_stale_adoption_steals_false`).
If every claim is decided on a current view of the object, then, whatever the interleaving, an object once controlled by
`u` stays controlled by `u`. -/
theorem C06_never_stolen_partial (s : Store) (hs : ∀ n o, s n = some o → OneController o) (ops : List Op)
    (hc : OnlyClaims ops) (hf : FreshRun s ops) (n u : String) (o : Obj) (ho : s n = some o) (hu : ControlledBy o u) :
    ∃ o', run s ops n = some o' ∧ o'.uid = o.uid ∧ ControlledBy o' u := by
  induction ops generalizing s o with
  | nil => exact ⟨o, ho, rfl, hu⟩
  | cons op ops ih =>
    cases op with
    | put _ => exact absurd (hc _ (List.mem_cons_self ..)) (by simp)
    | remove _ => exact absurd (hc _ (List.mem_cons_self ..)) (by simp)
    | claim self sel live view lost =>
      obtain ⟨hfr, hrest⟩ := hf
      have hinv : StoreOk (step s (.claim self sel live view lost)) := by
        have := C06_at_most_one_controller s hs [.claim self sel live view lost]
        exact this
      suffices H : ∃ o1, step s (.claim self sel live view lost) n = some o1 ∧ o1.uid = o.uid ∧ ControlledBy o1 u by
        obtain ⟨o1, h1, h2, h3⟩ := H
        obtain ⟨o', h4, h5, h6⟩ := ih _ hinv (fun op hop => hc op (by simp [hop])) hrest o1 h1 h3
        exact ⟨o', h4, h5.trans h2, h6⟩
      simp only [step]
      split
      · exact ⟨o, ho, rfl, hu⟩
      · simp only [Fresh] at hfr
        by_cases hn : n = view.name
        · subst hn
          have hov : o = view := by rw [hfr] at ho; simpa using ho.symm
          subst hov
          have hone := hs _ _ ho
          have hsp := claimObject_spec self sel live (fun _ => none) none o hone (fun b hb => by simp at hb)
          rcases hsp with ⟨a, b, _⟩ | ⟨a, _⟩ | ⟨_, _, _, d⟩
          · rw [b]
            have huself : u = self.uid := by
              have h1 := (controllerOf_some o hone u).2 hu
              have h2 := (controllerOf_some o hone self.uid).2 a.1
              rw [h1] at h2; simpa using h2
            simp only [applyEffs]
            rcases applyPatch_same s o.name o.uid (releaseDoc self) with h1 | ⟨o', h1, _, h3⟩
            · exact ⟨o, h1.trans ho, rfl, hu⟩
            · rw [hfr] at h1; simp at h1; subst h1
              exact ⟨_, h3, rfl, by simp [ControlledBy, releaseDoc, huself]⟩
          · have := a.1 _ hu; simp at this
          · rcases d with d | d <;> (rw [d]; exact ⟨o, ho, rfl, hu⟩)
        · refine ⟨o, ?_, rfl, hu⟩
          have hgen : ∀ effs : List Eff, (∀ o', (Eff.adopt o' ∈ effs ∨ Eff.release o' ∈ effs) → o'.name = view.name) →
              ∀ s, applyEffs self s effs n = s n := by
            intro effs
            induction effs with
            | nil => intro _ s; rfl
            | cons e es ihe =>
              intro h s
              have h' : ∀ o', (Eff.adopt o' ∈ es ∨ Eff.release o' ∈ es) → o'.name = view.name :=
                fun o' ho' => h o' (by rcases ho' with h | h <;> simp [h])
              cases e with
              | recheck b => exact ihe h' s
              | adopt o' => simp only [applyEffs]; rw [ihe h', applyPatch_other]; rw [h o' (by simp)]; exact hn
              | release o' => simp only [applyEffs]; rw [ihe h', applyPatch_other]; rw [h o' (by simp)]; exact hn
          rw [hgen _ _ s, ho]
          intro o' ho'
          have hsp := claimObject_spec self sel live (fun _ => none) none view (hs _ _ hfr) (fun b hb => by simp at hb)
          rcases hsp with ⟨_, b, _⟩ | ⟨_, _, c, _⟩ | ⟨_, _, _, d⟩
          · rw [b] at ho'; simp at ho'; rw [ho']
          · rcases c with ⟨_, c⟩ | ⟨_, c⟩ <;> (rw [c] at ho'; simp at ho'; rw [ho'])
          · rcases d with d | d <;> (rw [d] at ho'; simp at ho')

example : let o : Obj := { name := "m", uid := "1", owners := [⟨"a", true⟩] }
    let s : Store := fun n => if n = "m" then some o else none
    OnlyClaims [.claim ⟨"b", false⟩ (fun _ => true) (some ⟨"b", false⟩) o false]
    ∧ FreshRun s [.claim ⟨"b", false⟩ (fun _ => true) (some ⟨"b", false⟩) o false] ∧ ControlledBy o "a" := by
  refine ⟨?_, ?_, ?_⟩
  · intro op h; simp at h; subst h; trivial
  · simp [FreshRun, Fresh]
  · simp [ControlledBy]

/-- **The property fails for stale caches**: two MachineSets with overlapping selectors both still cache a machine as an
orphan; the second adoption silently replaces the first set as controller (the merge patch replaces the whole list, so
the API server never sees two controllers and does not reject it). -/
theorem C06_stale_adoption_steals_false :
    ∃ (s : Store) (a b : Ctrl) (o : Obj), a.uid ≠ b.uid ∧ s "m" = some o ∧
      let s1 := step s (.claim a (fun _ => true) (some a) o false)
      let s2 := step s1 (.claim b (fun _ => true) (some b) o false)
      (∃ o1, s1 "m" = some o1 ∧ ControlledBy o1 a.uid) ∧
      (∃ o2, s2 "m" = some o2 ∧ ControlledBy o2 b.uid ∧ ¬ ControlledBy o2 a.uid) := by
  refine ⟨fun n => if n = "m" then some { name := "m", uid := "1" } else none, ⟨"a", false⟩, ⟨"b", false⟩,
    { name := "m", uid := "1" }, by decide, rfl, ?_, ?_⟩
  · exact ⟨{ name := "m", uid := "1", owners := [⟨"a", true⟩] }, by decide, by simp [ControlledBy]⟩
  · exact ⟨{ name := "m", uid := "1", owners := [⟨"b", true⟩] }, by decide, by simp [ControlledBy], by simp [ControlledBy]⟩

/-- **The property fails for releases**: whenever a release patch is accepted, the object is *still* controlled by the
releasing controller afterwards (and has lost all its other owner references): under a merge patch the `$patch`
directive means nothing and the array is simply set. -/
theorem C06_release_does_not_release_false (s : Store) (self : Ctrl) (sel : SMap → Bool) (live : Option Ctrl) (o : Obj)
    (ho : s o.name = some o) (hone : OneController o) (hr : Releasable self sel o) :
    ∃ o', step s (.claim self sel live o false) o.name = some o' ∧ o'.owners = [⟨self.uid, true⟩] := by
  have hsp := claimObject_spec self sel live (fun _ => none) none o hone (fun b hb => by simp at hb)
  have hb : (claimObject self sel live (fun _ => none) none o).effs = [.release o] := by
    rcases hsp with ⟨_, b, _⟩ | ⟨a, _⟩ | ⟨a, _⟩
    · exact b
    · have := a.2.2.1; rw [hr.2.1] at this; simp at this
    · exact absurd hr a
  simp only [step, hb, applyEffs, Bool.false_eq_true, if_false]
  refine ⟨{ o with owners := [⟨self.uid, true⟩] }, ?_, rfl⟩
  simp [applyPatch, ho, mergeOwners, releaseDoc]

example : Releasable ⟨"me", false⟩ (fun l => l.get "a" = "b") { name := "n", uid := "2", owners := [⟨"me", true⟩, ⟨"x", false⟩] } := by
  refine ⟨by simp [ControlledBy], by decide, rfl⟩

/-- The documents are right for the other type of patch: it would remove the controller, and nothing else, and add it without removing another owner. -/
theorem C06_strategic_patch (self : Ctrl) (old : List OwnerRef) :
    (∀ r, r ∈ strategicOwners old (releaseDoc self) ↔ r ∈ old ∧ r.uid ≠ self.uid) ∧
    (∀ r, (∀ x ∈ old, x.uid ≠ self.uid) → (r ∈ strategicOwners old (adoptDoc self) ↔ r ∈ old ∨ r = ⟨self.uid, true⟩)) := by
  constructor
  · intro r
    simp [strategicOwners, releaseDoc]
  · intro r h
    have : (old.any fun r => r.uid == self.uid) = false := by
      rw [List.any_eq_false]
      intro x hx
      simpa using h x hx
    simp [strategicOwners, adoptDoc, this]

/-! ## What a claim concerns -/

/-- what a claim may concern -/
def Concerned (self : Ctrl) (sel : SMap → Bool) (live : Option Ctrl) (o : Obj) : Prop :=
  controllerOf o = some self.uid ∨ (controllerOf o = none ∧ sel o.labels = true ∧ o.deleting = false ∧ self.deleting = false ∧ LiveOk self live)

theorem claimObject_within {self : Ctrl} {sel : SMap → Bool} {live : Option Ctrl} {ans : Obj → Option ApiErr} {memo : Option Bool}
    (hm : MemoOk self live memo) (o x : Obj)
    (h : ((claimObject self sel live ans memo o).claimed = true ∧ x = o) ∨ .adopt x ∈ (claimObject self sel live ans memo o).effs ∨
      .release x ∈ (claimObject self sel live ans memo o).effs) : x = o ∧ Concerned self sel live o := by
  unfold claimObject at h
  unfold Concerned
  cases hc : controllerOf o with
  | some u =>
    rw [hc] at h
    dsimp only at h
    by_cases hu : u ≠ self.uid
    · rw [if_pos hu] at h; simp at h
    · rw [if_neg hu] at h
      have hu : u = self.uid := by simpa using hu
      refine ⟨?_, .inl (by rw [hu])⟩
      split at h
      · simpa using h
      · split at h
        · simp at h
        · split at h <;> simpa using h
  | none =>
    rw [hc] at h
    dsimp only at h
    split at h
    · simp at h
    · rename_i h1
      split at h
      · simp at h
      · rename_i h2
        have key : (canAdopt self live memo).1 = true → LiveOk self live := by
          intro hk
          rw [← canAdoptFunc_iff]
          unfold canAdopt at hk
          cases memo with
          | none => exact hk
          | some b => dsimp only at hk; rw [← hm b rfl]; exact hk
        have effs : ∀ y, .adopt y ∉ (canAdopt self live memo).2 ∧ .release y ∉ (canAdopt self live memo).2 := by
          intro y
          unfold canAdopt
          cases memo <;> simp
        cases hca : (canAdopt self live memo).1 with
        | false =>
          rw [hca] at h
          simp only [Bool.not_false, if_true] at h
          rcases h with ⟨h, _⟩ | h | h
          · cases h
          · exact absurd h (effs x).1
          · exact absurd h (effs x).2
        | true =>
          rw [hca] at h
          simp only [Bool.not_true, Bool.false_eq_true, if_false] at h
          simp only [Bool.or_eq_true, Bool.not_eq_true', not_or, Bool.not_eq_true, Bool.not_eq_false] at h1
          refine ⟨?_, .inr ⟨rfl, h1.2, by simpa using h2, h1.1, key hca⟩⟩
          split at h
          · rcases h with ⟨_, h⟩ | h | h
            · exact h
            · rcases List.mem_append.1 h with h | h
              · exact absurd h (effs x).1
              · simpa using h
            · rcases List.mem_append.1 h with h | h
              · exact absurd h (effs x).2
              · simp at h
          · rcases h with ⟨h, _⟩ | h | h
            · cases h
            · rcases List.mem_append.1 h with h | h
              · exact absurd h (effs x).1
              · simpa using h
            · rcases List.mem_append.1 h with h | h
              · exact absurd h (effs x).2
              · simp at h
          · rcases h with ⟨h, _⟩ | h | h
            · cases h
            · rcases List.mem_append.1 h with h | h
              · exact absurd h (effs x).1
              · simpa using h
            · rcases List.mem_append.1 h with h | h
              · exact absurd h (effs x).2
              · simp at h

theorem claimAll_within {self : Ctrl} {sel : SMap → Bool} {live : Option Ctrl} {ans : Obj → Option ApiErr} :
    ∀ (l : List Obj) (memo : Option Bool), MemoOk self live memo → ∀ x, (x ∈ (claimAll self sel live ans memo l).1 ∨
      .adopt x ∈ (claimAll self sel live ans memo l).2.2 ∨ .release x ∈ (claimAll self sel live ans memo l).2.2) → x ∈ l ∧ Concerned self sel live x
  | [], _, _, x, h => by simp [claimAll] at h
  | o :: l, memo, hm, x, h => by
    rw [claimAll] at h
    dsimp only at h
    have ih := claimAll_within (sel := sel) (ans := ans) l _ (claimObject_memo self sel live ans memo o hm) x
    have h1 := claimObject_within (sel := sel) (ans := ans) hm o x
    have fin : (((claimObject self sel live ans memo o).claimed = true ∧ x = o) ∨ .adopt x ∈ (claimObject self sel live ans memo o).effs ∨
      .release x ∈ (claimObject self sel live ans memo o).effs) → x ∈ o :: l ∧ Concerned self sel live x := fun h => by
      obtain ⟨rfl, h⟩ := h1 h
      exact ⟨List.mem_cons_self, h⟩
    have fin2 := fun h => And.imp_left (List.mem_cons_of_mem o) (ih h)
    rcases h with h | h | h
    · split at h
      · rename_i hc
        rcases List.mem_cons.1 h with rfl | h
        · exact fin (.inl ⟨hc, rfl⟩)
        · exact fin2 (.inl h)
      · exact fin2 (.inl h)
    · rcases List.mem_append.1 h with h | h
      · exact fin (.inr (.inl h))
      · exact fin2 (.inr (.inl h))
    · rcases List.mem_append.1 h with h | h
      · exact fin (.inr (.inr h))
      · exact fin2 (.inr (.inr h))

end MCM.Claim
