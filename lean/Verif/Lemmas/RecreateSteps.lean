import Verif.Lemmas.Rescale
/-!
What one run of the deployment controller does to the sizes of the machine sets of a deployment with the strategy Recreate: a measure of the remaining work that never
grows, and shrinks whenever a size changes.
-/
namespace MCM.Dispatch
open MCM MCM.Template MCM.Rolling

/-- the set wants machines -/
def wants (f : FSet) : Bool := decide (0 < f.set.spec)

/-- the set wants machines and was last scaled for another number of replicas -/
def pendingSet (d : FDep) (f : FSet) : Bool :=
  wants f && match f.set.desired.bind atoi with | none => false | some v => v != d.spec.replicas

/-- a scaling request is pending -/
def pending (d : FDep) (l : List FSet) : Bool := l.any (pendingSet d)

/-- number of sets that want machines -/
def wanting (l : List FSet) : Nat := (l.filter wants).length

/-- if a scaling request is pending, at most one set wants machines -/
def Single (d : FDep) (l : List FSet) : Prop := pending d l = true → wanting l ≤ 1

/-- what remains to be done -/
def rank (d : FDep) (l : List FSet) : Nat :=
  match cur d l with
  | none => 2 * wanting l + 4
  | some n => (toWrite d l n).toNat + 2 * wanting (others l n.set.name) + (pending d l && decide (0 < wanting (others l n.set.name))).toNat +
      (if n.set.spec = d.spec.replicas then 0 else 1)

/-- the set as `scaleMachineSet` writes it -/
def scaledTo (d : FDep) (s : Scale.MSet) (x : Int) : Scale.MSet :=
  { s with spec := x, desired := some (Scale.desiredText d.spec), maxR := some (Scale.maxText d.spec) }

/-- only the set `t` is scaled, to the number of replicas -/
structure Retarget (d : FDep) (t a b : FSet) : Prop extends SameRev a b where
  hit : a.set.name = t.set.name → b.set = scaledTo d t.set d.spec.replicas
  miss : a.set.name ≠ t.set.name → b.set = a.set

/-- sets other than `c` may be scaled to zero -/
structure Zeroed (d : FDep) (c : Option String) (a b : FSet) : Prop extends SameRev a b where
  or : b.set = a.set ∨ (some a.set.name ≠ c ∧ 0 < a.set.spec ∧ b.set = scaledTo d a.set 0)

/-- everything is done -/
def Rests (d : FDep) (l : List FSet) : Prop := rank d l = 0

/-- What a run can do; `G` says that it is a good one. -/
inductive Outcome (d : FDep) (e : Env) (l : List FSet) (G : Prop) : List FSet → Prop
  | same {out : List FSet} : (G → Rests d l) → List.Forall₂ Alike l out → Outcome d e l G out
  | write (n : FSet) : cur d l = some n → toWrite d l n = true → Outcome d e l G (writeCur d l n)
  | target (n t : FSet) {m out : List FSet} : cur d l = some n → toWrite d l n = false → t ∈ l → (∀ f ∈ l, f.set.name ≠ t.set.name → f.set.spec = 0) →
      (t = n ∨ pending d l = true ∧ 0 < t.set.spec) → List.Forall₂ (Retarget d t) l m → List.Forall₂ Alike m out → Outcome d e l G out
  | zero {m out : List FSet} : List.Forall₂ (Zeroed d ((cur d l).map (·.set.name))) l m →
      (G → ∃ a ∈ l, some a.set.name ≠ (cur d l).map (·.set.name) ∧ 0 < a.set.spec) →
      (G → ∀ b ∈ m, some b.set.name ≠ (cur d l).map (·.set.name) → b.set.spec = 0) → List.Forall₂ Alike m out → Outcome d e l G out
  | create {out : List FSet} : cur d l = none → (∀ f ∈ l, f.set.spec = 0) → (∀ f ∈ l, e.machines f.set.name = 0) →
      List.Forall₂ Alike (l ++ [newSet d e l d.spec.replicas]) out → Outcome d e l G out

/-! ### Counting -/

theorem wanting_le {R : FSet → FSet → Prop} (hR : ∀ a b, R a b → wants b = true → wants a = true) {l l' : List FSet} (h : List.Forall₂ R l l') :
    wanting l' ≤ wanting l ∧ (wanting l' = wanting l → List.Forall₂ (fun a b => R a b ∧ wants b = wants a) l l') := by
  induction h with
  | nil => exact ⟨Nat.le_refl _, fun _ => .nil⟩
  | @cons a b l l' hr _ ih =>
    have := hR a b hr
    unfold wanting at ih ⊢
    rw [List.filter_cons, List.filter_cons]
    cases ha : wants a with
    | true =>
      cases hb : wants b with
      | true =>
        simp only [if_true, List.length_cons]
        exact ⟨by omega, fun h => .cons ⟨hr, by rw [ha, hb]⟩ (ih.2 (by omega))⟩
      | false =>
        simp only [if_true, List.length_cons, Bool.false_eq_true, if_false]
        exact ⟨by omega, fun h => by omega⟩
    | false =>
      cases hb : wants b with
      | true => rw [this hb] at ha; cases ha
      | false =>
        simp only [Bool.false_eq_true, if_false]
        exact ⟨ih.1, fun h => .cons ⟨hr, by rw [ha, hb]⟩ (ih.2 h)⟩

theorem wanting_zero {l : List FSet} : wanting l = 0 ↔ ∀ f ∈ l, ¬ 0 < f.set.spec := by
  unfold wanting
  rw [List.length_eq_zero_iff, List.filter_eq_nil_iff]
  constructor
  · intro h f hf; have := h f hf; unfold wants at this; simpa using this
  · intro h f hf; have := h f hf; unfold wants; simpa using this

theorem wanting_others_le (l : List FSet) (n : String) : wanting (others l n) ≤ wanting l := by
  unfold wanting others
  rw [List.filter_filter]
  have : l.filter (fun a => wants a && !(a.set.name == n)) = (l.filter wants).filter (fun a => !(a.set.name == n)) := by
    rw [List.filter_filter]
    refine List.filter_congr fun a _ => Bool.and_comm _ _
  rw [this]
  exact List.length_filter_le _ _

theorem wanting_one {l : List FSet} (hu : Unique l) {t : FSet} (ht : t ∈ l) (h : ∀ f ∈ l, f.set.name ≠ t.set.name → f.set.spec = 0) : wanting l ≤ 1 := by
  unfold wanting
  induction l with
  | nil => simp
  | cons a l ih =>
    unfold Unique at hu
    rw [List.map_cons, List.nodup_cons] at hu
    rw [List.filter_cons]
    rcases List.mem_cons.1 ht with rfl | htl
    · have : l.filter wants = [] := List.filter_eq_nil_iff.2 fun f hf => by
        have : f.set.name ≠ t.set.name := fun he => hu.1 (List.mem_map.2 ⟨f, hf, he⟩)
        have := h f (by simp [hf]) this
        unfold wants; simp [this]
      rw [this]
      split <;> simp
    · have hne : a.set.name ≠ t.set.name := fun he => hu.1 (List.mem_map.2 ⟨t, htl, he.symm⟩)
      have h0 : wants a = false := by unfold wants; simp [h a (by simp) hne]
      rw [h0]
      simp only [Bool.false_eq_true, if_false]
      exact ih hu.2 htl fun f hf => h f (by simp [hf])

theorem pending_iff {d : FDep} {l : List FSet} : pending d l = true ↔ ∃ f ∈ l, 0 < f.set.spec ∧ ∃ v, f.set.desired.bind atoi = some v ∧ v ≠ d.spec.replicas := by
  unfold pending
  rw [List.any_eq_true]
  constructor
  · rintro ⟨f, hf, h⟩
    unfold pendingSet wants at h
    rw [Bool.and_eq_true] at h
    refine ⟨f, hf, by simpa using h.1, ?_⟩
    cases hv : f.set.desired.bind atoi with
    | none => rw [hv] at h; simp at h
    | some v => rw [hv] at h; exact ⟨v, rfl, by simpa using h.2⟩
  · rintro ⟨f, hf, h1, v, h2, h3⟩
    refine ⟨f, hf, ?_⟩
    unfold pendingSet wants
    rw [h2]
    simp [h1, h3]

theorem pending_forall2 {d : FDep} {R : FSet → FSet → Prop} (hR : ∀ a b, R a b → 0 < b.set.spec → (∃ v, b.set.desired.bind atoi = some v ∧ v ≠ d.spec.replicas) →
    0 < a.set.spec ∧ b.set.desired = a.set.desired) {l l' : List FSet} (h : List.Forall₂ R l l') (hp : pending d l' = true) : pending d l = true := by
  obtain ⟨b, hb, h1, v, h2, h3⟩ := pending_iff.1 hp
  obtain ⟨a, ha, hr⟩ := mem_forall2 h b hb
  obtain ⟨k1, k2⟩ := hR a b hr h1 ⟨v, h2, h3⟩
  exact pending_iff.2 ⟨a, ha, k1, v, by rw [← k2]; exact h2, h3⟩

theorem map_forall2_mem {R : FSet → FSet → Prop} {α : Type} {g : FSet → α} {l l' : List FSet} (h : List.Forall₂ R l l')
    (hg : ∀ a b, a ∈ l → R a b → g b = g a) : l'.map g = l.map g := by
  induction h with
  | nil => rfl
  | cons hr _ ih => rw [List.map_cons, List.map_cons, hg _ _ (by simp) hr, ih fun a b ha hab => hg a b (by simp [ha]) hab]

/-- nothing changes that matters here -/
structure Even (a b : FSet) : Prop extends SameRev a b where
  spec : b.set.spec = a.set.spec
  desired : b.set.desired = a.set.desired

theorem Agree.even {a b : FSet} (h : Agree a b) : Even a b := ⟨h.sameRev, h.spec, h.desired⟩

theorem even_wants {a b : FSet} (h : Even a b) : wants b = wants a := by unfold wants; rw [h.spec]

theorem forall2_symm {R S : FSet → FSet → Prop} (hR : ∀ a b, R a b → S b a) {l l' : List FSet} (h : List.Forall₂ R l l') : List.Forall₂ S l' l := by
  induction h with
  | nil => exact .nil
  | cons hr _ ih => exact .cons (hR _ _ hr) ih

theorem even_symm {a b : FSet} (h : Even a b) : Even b a := ⟨⟨h.name.symm, h.tmpl.symm, h.annotations.symm, h.minReady.symm⟩, h.spec.symm, h.desired.symm⟩

theorem even_wanting {l l' : List FSet} (h : List.Forall₂ Even l l') : wanting l' = wanting l :=
  Nat.le_antisymm (wanting_le (fun a b hr hb => by rw [← even_wants hr]; exact hb) h).1
    (wanting_le (fun a b hr hb => by rw [← even_wants hr]; exact hb) (forall2_symm (fun _ _ h => even_symm h) h)).1

theorem even_pending {d : FDep} {l l' : List FSet} (h : List.Forall₂ Even l l') : pending d l' = pending d l := by
  have h1 : ∀ {l l' : List FSet}, List.Forall₂ Even l l' → pending d l' = true → pending d l = true :=
    fun h => pending_forall2 (fun a b hr hp _ => ⟨by rw [← hr.spec]; exact hp, hr.desired⟩) h
  have h2 := h1 h
  have h3 := h1 (forall2_symm (fun _ _ h => even_symm h) h)
  cases ha : pending d l' <;> cases hb : pending d l <;> simp_all

/-- how the rank comes out of a step that keeps the current set -/
theorem rank_some {d : FDep} {l : List FSet} {n : FSet} (h : cur d l = some n) :
    rank d l = (toWrite d l n).toNat + 2 * wanting (others l n.set.name) + (pending d l && decide (0 < wanting (others l n.set.name))).toNat +
      (if n.set.spec = d.spec.replicas then 0 else 1) := by unfold rank; rw [h]

theorem rank_none {d : FDep} {l : List FSet} (h : cur d l = none) : rank d l = 2 * wanting l + 4 := by unfold rank; rw [h]

theorem cur_sameRev {d : FDep} {R : FSet → FSet → Prop} (hR : ∀ a b, R a b → SameRev a b) {l l' : List FSet} (h : List.Forall₂ R l l') :
    (cur d l = none ∧ cur d l' = none) ∨ ∃ a b, cur d l = some a ∧ cur d l' = some b ∧ R a b ∧ toWrite d l' b = toWrite d l a := by
  rcases cur_forall2 (d := d) (fun a b hr => by rw [(hR a b hr).tmpl]; exact ⟨rfl, rfl⟩) h with h0 | ⟨a, b, h1, h2, h3⟩
  · exact .inl h0
  · exact .inr ⟨a, b, h1, h2, h3, toWrite_congr (h.imp hR) (hR a b h3)⟩

theorem even_rank {d : FDep} {l l' : List FSet} (h : List.Forall₂ Even l l') : rank d l' = rank d l ∧ specs l' = specs l := by
  refine ⟨?_, map_forall2 (fun a b hr => by rw [hr.name, hr.spec]) h⟩
  rcases cur_sameRev (d := d) (fun _ _ h => h.toSameRev) h with ⟨h1, h2⟩ | ⟨a, b, h1, h2, h3, h4⟩
  · rw [rank_none h1, rank_none h2, even_wanting h]
  · rw [rank_some h1, rank_some h2, h4, even_pending h, h3.spec, h3.name, even_wanting (others_forall2 (fun _ _ h => h.name) h a.set.name)]

theorem even_single {d : FDep} {l l' : List FSet} (h : List.Forall₂ Even l l') (hs : Single d l) : Single d l' := by
  intro hp
  rw [even_pending h] at hp
  rw [even_wanting h]
  exact hs hp

theorem wanting_congr {R : FSet → FSet → Prop} (hR : ∀ a b, R a b → b.set.spec = a.set.spec) {l l' : List FSet} (h : List.Forall₂ R l l') : wanting l' = wanting l :=
  Nat.le_antisymm (wanting_le (fun a b hr hb => by unfold wants at *; rw [← hR a b hr]; exact hb) h).1
    (wanting_le (R := fun b a => R a b) (fun b a hr hb => by unfold wants at *; rw [hR a b hr]; exact hb) (forall2_symm (fun _ _ h => h) h)).1

theorem pending_congr {d : FDep} {R : FSet → FSet → Prop} (hR : ∀ a b, R a b → b.set.spec = a.set.spec ∧ b.set.desired = a.set.desired) {l l' : List FSet}
    (h : List.Forall₂ R l l') : pending d l' = pending d l := by
  have h2 : pending d l' = true → pending d l = true := pending_forall2 (fun a b hr hp _ => ⟨by rw [← (hR a b hr).1]; exact hp, (hR a b hr).2⟩) h
  have h3 : pending d l = true → pending d l' = true :=
    pending_forall2 (R := fun b a => R a b) (fun b a hr hp _ => ⟨by rw [(hR a b hr).1]; exact hp, (hR a b hr).2.symm⟩) (forall2_symm (fun _ _ h => h) h)
  cases ha : pending d l' <;> cases hb : pending d l <;> simp_all

/-- what is claimed of a run -/
structure Better (d : FDep) (G : Prop) (l out : List FSet) : Prop where
  single : Single d out
  less : rank d out < rank d l ∨ rank d out = rank d l ∧ specs out = specs l
  good : G → 0 < rank d l → rank d out < rank d l
  below : ∀ b, Below b l → d.spec.replicas ≤ b → Below b out
  one : wanting l ≤ 1 → wanting out ≤ 1

theorem Better.alike {d : FDep} {G : Prop} {l m out : List FSet} (h : Better d G l m) (ha : List.Forall₂ Alike m out) : Better d G l out := by
  have he : List.Forall₂ Even m out := ha.imp fun _ _ hr => hr.agree.even
  obtain ⟨h1, h2⟩ := even_rank (d := d) he
  exact ⟨even_single he h.single, by rw [h1, h2]; exact h.less, by rw [h1]; exact h.good, fun b hb hr => below_specs h2 (h.below b hb hr),
    fun h1 => by rw [even_wanting he]; exact h.one h1⟩

theorem Better.refl {d : FDep} {G : Prop} {l : List FSet} (hs : Single d l) (hG : G → Rests d l) : Better d G l l :=
  ⟨hs, .inr ⟨rfl, rfl⟩, fun hg h => by have := hG hg; unfold Rests at this; omega, fun _ h _ => h, fun h => h⟩

theorem better_write {d : FDep} (hd : Plain d) {G : Prop} {l : List FSet} (hs : SoundIf False d l) (hsg : Single d l) {n : FSet} (hn : cur d l = some n)
    (hw : toWrite d l n = true) : Better d G l (writeCur d l n) := by
  have hf := written_forall2 (d := d) hs.unique (cur_mem hn)
  obtain ⟨h1, h2⟩ := write_rests hd hs hn hw
  have hwa : wanting (writeCur d l n) = wanting l := wanting_congr (fun a b hr => by rw [hr.1]) hf
  have hpe : pending d (writeCur d l n) = pending d l := pending_congr (fun a b hr => by rw [hr.1]; exact ⟨rfl, rfl⟩) hf
  have hsp : specs (writeCur d l n) = specs l := map_forall2 (fun a b hr => by rw [hr.1]) hf
  have hlt : rank d (writeCur d l n) < rank d l := by
    rw [rank_some hn, rank_some h1, hw, h2, hpe, show (written d l n).set = n.set from rfl, others_written]
    simp only [Bool.toNat_false, Bool.toNat_true]
    omega
  refine ⟨fun hp => ?_, .inl hlt, fun _ _ => hlt, fun b hb _ => below_specs hsp hb, fun h => by rw [hwa]; exact h⟩
  rw [hwa]; rw [hpe] at hp; exact hsg hp

/-- one set is scaled to the size of the deployment, all others are zero: no change is pending -/
theorem target_pending {d : FDep} (hd : Plain d) {l m : List FSet} {t : FSet} (hz : ∀ f ∈ l, f.set.name ≠ t.set.name → f.set.spec = 0)
    (hf : List.Forall₂ (Retarget d t) l m) : pending d m = false := by
  cases hp : pending d m with
  | false => rfl
  | true =>
    obtain ⟨b, hb, h1, v, h2, h3⟩ := pending_iff.1 hp
    obtain ⟨a, ha, hr⟩ := mem_forall2 hf b hb
    by_cases hc : a.set.name = t.set.name
    · rw [hr.hit hc] at h2
      change (some (Scale.desiredText d.spec)).bind atoi = some v at h2
      rw [Option.bind_some, Scale.desiredText_reads d.spec hd.size.1 hd.size.2] at h2
      cases h2; exact absurd rfl h3
    · rw [hr.miss hc] at h1
      have := hz a ha hc; omega

theorem better_target {d : FDep} (hd : Plain d) {G : Prop} {l m : List FSet} (hs : SoundIf False d l) {n t : FSet} (hn : cur d l = some n)
    (hw : toWrite d l n = false) (ht : t ∈ l) (hz : ∀ f ∈ l, f.set.name ≠ t.set.name → f.set.spec = 0) (hor : t = n ∨ pending d l = true ∧ 0 < t.set.spec)
    (hf : List.Forall₂ (Retarget d t) l m) : Better d G l m := by
  have hu := hs.unique
  have hzm : ∀ b ∈ m, b.set.name ≠ t.set.name → b.set.spec = 0 := by
    intro b hb hne
    obtain ⟨a, ha, hr⟩ := mem_forall2 hf b hb
    rw [hr.name] at hne
    rw [hr.miss hne]; exact hz a ha hne
  have hnp : pending d m = false := target_pending hd hz hf
  have hum : Unique m := unique_forall2 (fun a b hr => hr.name) hf hu
  obtain ⟨n', hn', hr⟩ : ∃ n', cur d m = some n' ∧ Retarget d t n n' ∧ toWrite d m n' = toWrite d l n := by
    rcases cur_sameRev (d := d) (fun a b hr => Retarget.toSameRev hr) hf with ⟨h1, _⟩ | ⟨a, b, h1, h2, h3, h4⟩
    · rw [hn] at h1; cases h1
    · rw [hn] at h1; cases h1; exact ⟨b, h2, h3, h4⟩
  obtain ⟨hr, htw⟩ := hr
  obtain ⟨t', ht', hrt⟩ : ∃ t' ∈ m, t'.set.name = t.set.name := by
    have : t.set.name ∈ m.map (fun f => f.set.name) := by
      rw [map_forall2 (g := fun f => f.set.name) (fun a b hr => hr.name) hf]; exact List.mem_map.2 ⟨t, ht, rfl⟩
    obtain ⟨x, hx, he⟩ := List.mem_map.1 this
    exact ⟨x, hx, he⟩
  have hwm : wanting m ≤ 1 := wanting_one hum ht' (by rw [hrt]; exact hzm)
  have hbelow : ∀ b, Below b l → d.spec.replicas ≤ b → Below b m := by
    intro b hb hr f hf'
    obtain ⟨a, ha, hra⟩ := mem_forall2 hf f hf'
    by_cases hc : a.set.name = t.set.name
    · rw [hra.hit hc]; exact hr
    · rw [hra.miss hc]; exact hb a ha
  refine ⟨(fun hp => by rw [hnp] at hp; cases hp), ?_, ?_, hbelow, fun _ => hwm⟩
  all_goals
    have hrm := rank_some hn'
    have hrl := rank_some hn
    rw [htw, hw, hnp] at hrm
    rw [hw] at hrl
    simp only [Bool.toNat_false, Bool.false_and] at hrm hrl
  all_goals
    by_cases htn : t = n
    · subst htn
      have hset := hr.hit rfl
      have hspec : n'.set.spec = d.spec.replicas := by rw [hset]; rfl
      have hname : n'.set.name = t.set.name := hr.name
      have h0 : ∀ {l : List FSet}, (∀ f ∈ l, f.set.name ≠ t.set.name → f.set.spec = 0) → wanting (others l t.set.name) = 0 := by
        intro l hz
        refine wanting_zero.2 fun f hf => ?_
        obtain ⟨h1, h2⟩ := mem_others.1 hf
        have := hz f h1 h2; omega
      rw [hname, h0 hzm, if_pos hspec] at hrm
      rw [h0 hz] at hrl
      simp only [Nat.lt_irrefl, decide_false, Bool.and_false, Bool.toNat_false, Nat.mul_zero, Nat.add_zero, Nat.zero_add] at hrm hrl
      by_cases hc : t.set.spec = d.spec.replicas
      · rw [if_pos hc] at hrl
        first
          | exact .inr ⟨by omega, map_forall2_mem hf fun a b ha hab => by
              by_cases hca : a.set.name = t.set.name
              · rw [hab.name, hab.hit hca, unique_eq l hu a t ha ht hca]
                show (t.set.name, d.spec.replicas) = _
                rw [hc]
              · rw [hab.miss hca]⟩
          | (intro _ h; omega)
      · rw [if_neg hc] at hrl
        first | exact .inl (by omega) | (intro _ h; omega)
    · have hp := hor.resolve_left htn
      have hne : n.set.name ≠ t.set.name := fun he => htn (unique_eq l hu t n ht (cur_mem hn) he.symm)
      have hset := hr.miss hne
      have h1 : wanting (others m n'.set.name) ≤ 1 := Nat.le_trans (wanting_others_le _ _) hwm
      have h2 : 0 < wanting (others l n.set.name) := by
        refine Nat.pos_of_ne_zero fun h => ?_
        exact wanting_zero.1 h t (mem_others.2 ⟨ht, fun he => hne he.symm⟩) hp.2
      rw [hset] at hrm
      rw [hset] at h1
      simp only [hp.1, Bool.true_and, decide_eq_true h2, Bool.toNat_true] at hrl
      first | exact .inl (by omega) | (intro _ h; omega)

theorem zeroed_specs {d : FDep} {c : Option String} {nm : String} {l m : List FSet} (hf : List.Forall₂ (Zeroed d c) l m)
    (h1 : ∀ a ∈ l, ∀ b, Zeroed d c a b → a.set.name = nm → b.set = a.set) (h2 : ∀ a b, Zeroed d c a b ∧ wants b = wants a → b.set = a.set)
    (hw : wanting (others m nm) = wanting (others l nm)) (hwant : ∀ a b, Zeroed d c a b → wants b = true → wants a = true) : specs m = specs l := by
  have hso : List.Forall₂ (fun a b => Zeroed d c a b ∧ wants b = wants a) (others l nm) (others m nm) :=
    (wanting_le hwant (others_forall2 (fun a b hr => hr.name) hf nm)).2 hw
  unfold specs
  induction hf with
  | nil => rfl
  | @cons a b l m hr hrest ih =>
    rw [List.map_cons, List.map_cons]
    by_cases hc : a.set.name = nm
    · have hb : b.set.name = nm := by rw [hr.name]; exact hc
      have ho : ∀ (x : FSet) (l : List FSet), x.set.name = nm → others (x :: l) nm = others l nm := by
        intro x l hx; unfold others; rw [List.filter_cons]; simp [hx]
      rw [ho a l hc, ho b m hb] at hw hso
      rw [h1 a (by simp) b hr hc, ih (fun a ha => h1 a (by simp [ha])) hw hso]
    · have hb : b.set.name ≠ nm := by rw [hr.name]; exact hc
      have ho : ∀ (x : FSet) (l : List FSet), x.set.name ≠ nm → others (x :: l) nm = x :: others l nm := by
        intro x l hx; unfold others; rw [List.filter_cons]; simp [hx]
      rw [ho a l hc, ho b m hb] at hso
      cases hso with
      | cons k1 k2 =>
        rw [h2 a b k1, ih (fun a ha => h1 a (by simp [ha])) ?_ k2]
        exact Nat.le_antisymm (wanting_le (fun a b hr => hwant a b hr.1) k2).1
          (wanting_le (R := fun b a => wants b = wants a) (fun b a hr ha => by rw [hr]; exact ha) (forall2_symm (fun a b hr => hr.2) k2)).1

theorem better_zero {d : FDep} {G : Prop} {l m : List FSet} (hsg : Single d l) (hf : List.Forall₂ (Zeroed d ((cur d l).map (·.set.name))) l m)
    (hG : G → ∃ a ∈ l, some a.set.name ≠ (cur d l).map (·.set.name) ∧ 0 < a.set.spec)
    (hG' : G → ∀ b ∈ m, some b.set.name ≠ (cur d l).map (·.set.name) → b.set.spec = 0) : Better d G l m := by
  have hwant : ∀ a b, Zeroed d ((cur d l).map (·.set.name)) a b → wants b = true → wants a = true := by
    intro a b hr hb
    rcases hr.or with h | ⟨_, _, h⟩
    · unfold wants at *; rw [← h]; exact hb
    · rw [show wants b = decide (0 < b.set.spec) from rfl, h] at hb; simp [scaledTo] at hb
  have hwl := wanting_le hwant hf
  have hpe : pending d m = true → pending d l = true := by
    refine pending_forall2 (fun a b hr hp _ => ?_) hf
    rcases hr.or with h | ⟨_, _, h⟩
    · rw [← h]; exact ⟨hp, rfl⟩
    · rw [h] at hp; simp [scaledTo] at hp
  have hsame : ∀ a b, Zeroed d ((cur d l).map (·.set.name)) a b ∧ wants b = wants a → b.set = a.set := by
    intro a b ⟨hr, hw⟩
    rcases hr.or with h | ⟨_, h0, h⟩
    · exact h
    · unfold wants at hw
      rw [h] at hw
      simp [scaledTo, h0] at hw
  have hbelow : ∀ b, Below b l → d.spec.replicas ≤ b → Below b m := by
    intro b hb _ f hf'
    obtain ⟨a, ha, hra⟩ := mem_forall2 hf f hf'
    rcases hra.or with h | ⟨_, h0, h⟩
    · rw [h]; exact hb a ha
    · have := hb a ha
      rw [h]; show (0 : Int) ≤ b; omega
  have hsingle : Single d m := fun hp => Nat.le_trans hwl.1 (hsg (hpe hp))
  rcases cur_sameRev (d := d) (fun a b hr => Zeroed.toSameRev hr) hf with ⟨h1, h2⟩ | ⟨n, n', h1, h2, h3, h4⟩
  · rw [h1] at hG hG'
    refine ⟨hsingle, ?_, ?_, hbelow, fun h => Nat.le_trans hwl.1 h⟩
    · rw [rank_none h1, rank_none h2]
      rcases Nat.lt_or_eq_of_le hwl.1 with h | h
      · exact .inl (by omega)
      · exact .inr ⟨by omega, map_forall2 (fun a b hr => by rw [hsame a b hr]) (hwl.2 h)⟩
    · intro g _
      rw [rank_none h1, rank_none h2]
      obtain ⟨a, ha, _, h0⟩ := hG g
      have hp : 0 < wanting l := Nat.pos_of_ne_zero fun h => wanting_zero.1 h a ha h0
      have hz : wanting m = 0 := wanting_zero.2 fun f hf => by have := hG' g f hf (by simp); omega
      omega
  · have hns : n'.set = n.set := by
      rcases h3.or with h | ⟨h, _⟩
      · exact h
      · rw [h1] at h; exact absurd rfl h
    have hfo : List.Forall₂ (Zeroed d ((cur d l).map (·.set.name))) (others l n.set.name) (others m n.set.name) := others_forall2 (fun a b hr => hr.name) hf n.set.name
    have hwo := wanting_le hwant hfo
    have hrl := rank_some h1
    have hrm := rank_some h2
    rw [h4, hns] at hrm
    have hbit : (pending d m && decide (0 < wanting (others m n.set.name))).toNat ≤ (pending d l && decide (0 < wanting (others l n.set.name))).toNat := by
      cases hm : (pending d m && decide (0 < wanting (others m n.set.name))) with
      | false => simp
      | true =>
        rw [Bool.and_eq_true] at hm
        have h0 : 0 < wanting (others m n.set.name) := by simpa using hm.2
        rw [hpe hm.1, decide_eq_true (show 0 < wanting (others l n.set.name) by omega)]
        simp
    refine ⟨hsingle, ?_, ?_, hbelow, fun h => Nat.le_trans hwl.1 h⟩
    · rcases Nat.lt_or_eq_of_le hwo.1 with h | h
      · exact .inl (by omega)
      · rcases Nat.lt_or_eq_of_le hbit with hb | hb
        · exact .inl (by omega)
        refine .inr ⟨by omega, ?_⟩
        have hwm : ∀ a ∈ l, ∀ b, Zeroed d ((cur d l).map (·.set.name)) a b → a.set.name = n.set.name → b.set = a.set := by
          intro a _ b hr he
          rcases hr.or with h | ⟨h, _⟩
          · exact h
          · rw [h1, he] at h; exact absurd rfl h
        exact zeroed_specs hf hwm (fun a b hr => hsame a b hr) h hwant
    · intro g _
      obtain ⟨a, ha, hne, h0⟩ := hG g
      rw [h1] at hne
      have hp : 0 < wanting (others l n.set.name) :=
        Nat.pos_of_ne_zero fun h => wanting_zero.1 h a (mem_others.2 ⟨ha, fun he => hne (by rw [he]; rfl)⟩) h0
      have hz : wanting (others m n.set.name) = 0 := wanting_zero.2 fun f hf => by
        obtain ⟨k1, k2⟩ := mem_others.1 hf
        have := hG' g f k1 (by rw [h1]; intro he; exact k2 (Option.some.inj he))
        omega
      omega

theorem better_create {d : FDep} (hd : Plain d) {e : Env} {G : Prop} {l : List FSet} (he : e.Fine l) (hn : cur d l = none) (hz : ∀ f ∈ l, f.set.spec = 0) :
    Better d G l (l ++ [newSet d e l d.spec.replicas]) := by
  have hc := created_cur hd (e := e) hn d.spec.replicas
  have h0 : wanting l = 0 := wanting_zero.2 fun f hf => by have := hz f hf; omega
  have ho : others (l ++ [newSet d e l d.spec.replicas]) (newSet d e l d.spec.replicas).set.name = l := others_append_fresh he.fresh
  have hlt : rank d (l ++ [newSet d e l d.spec.replicas]) < rank d l := by
    rw [rank_some hc, rank_none hn, ho, h0, if_pos (show (newSet d e l d.spec.replicas).set.spec = d.spec.replicas from rfl)]
    have := Bool.toNat_le (toWrite d (l ++ [newSet d e l d.spec.replicas]) (newSet d e l d.spec.replicas))
    simp only [Nat.lt_irrefl, decide_false, Bool.and_false, Bool.toNat_false]
    omega
  have hnp : pending d (l ++ [newSet d e l d.spec.replicas]) = true → False := by
    intro hp
    obtain ⟨b, hb, h1, v, h2, h3⟩ := pending_iff.1 hp
    rcases List.mem_append.1 hb with hb | hb
    · have := hz b hb; omega
    · rw [List.mem_singleton.1 hb] at h2
      change (some (Scale.desiredText d.spec)).bind atoi = some v at h2
      rw [Option.bind_some, Scale.desiredText_reads d.spec hd.size.1 hd.size.2] at h2
      cases h2; exact h3 rfl
  refine ⟨fun hp => absurd hp hnp, .inl hlt, fun _ _ => hlt, fun b hb hr f hf => ?_, fun _ => ?_⟩
  case refine_2 =>
    unfold wanting at h0 ⊢
    rw [List.filter_append, List.length_append, h0]
    have := List.length_filter_le wants [newSet d e l d.spec.replicas]
    simpa using this
  rcases List.mem_append.1 hf with hf | hf
  · exact hb f hf
  · rw [List.mem_singleton.1 hf]; exact hr

theorem Outcome.better {d : FDep} (hd : Plain d) {e : Env} {G : Prop} {l out : List FSet} (he : e.Fine l) (hs : SoundIf False d l) (hsg : Single d l)
    (h : Outcome d e l G out) : Better d G l out := by
  cases h with
  | same hG h => exact (Better.refl hsg hG).alike h
  | write n hn hw => exact better_write hd hs hsg hn hw
  | target n t hn hw ht hz hor h1 h2 => exact (better_target hd hs hn hw ht hz hor h1).alike h2
  | zero h1 hG hG' h2 => exact (better_zero hsg h1 hG hG').alike h2
  | create hn hz _ h => exact (better_create hd he hn hz).alike h

/-! ### What a run does -/

/-- a run in which everything works and sets of size zero are known to be empty -/
structure Env.Good (e : Env) (l : List FSet) : Prop where
  smooth : e.Smooth
  done : e.created = .done
  empty : ∀ f ∈ l, f.set.spec = 0 → f.status = 0 ∧ e.machines f.set.name = 0

theorem scaleOrRoll_recreate {P : Prop} {d : FDep} (hr : d.spec.strategy = .recreate) {e : Env} {l : List FSet} (hs : SoundIf P d l) :
    (∃ n, cur d l = some n ∧ toWrite d l n = true ∧ scaleOrRoll d e l = if e.setOk then writeCur d l n else l) ∨
    (∃ n, cur d l = some n ∧ toWrite d l n = false ∧ ((e.depOk = false ∧ scaleOrRoll d e l = l) ∨
      (e.depOk = true ∧ Scale.isScalingEvent d.spec ((others l n.set.name).map (·.set)) (some n.set) = true ∧ scaleOrRoll d e l = sync d e l) ∨
      (e.depOk = true ∧ Scale.isScalingEvent d.spec ((others l n.set.name).map (·.set)) (some n.set) = false ∧ scaleOrRoll d e l = rolloutRecreate d e l))) ∨
    (cur d l = none ∧ scaleOrRoll d e l = rolloutRecreate d e l) := by
  unfold scaleOrRoll
  cases hn : cur d l with
  | none =>
    refine .inr (.inr ⟨rfl, ?_⟩)
    rw [getNew_none hn]
    dsimp only
    simp only [Bool.false_eq_true, if_false, Bool.or_self]
    have : curSet { sets := l } = none := rfl
    rw [this, hr]
    rfl
  | some n =>
    rw [getNew_cur hn]
    cases hw : toWrite d l n with
    | true =>
      refine .inl ⟨n, rfl, hw, ?_⟩
      rw [sync_write hw]
      cases e.setOk <;> rfl
    | false =>
      refine .inr (.inl ⟨n, rfl, hw, ?_⟩)
      rw [sync_rest hw]
      cases hdep : e.depOk with
      | false => exact .inl ⟨rfl, rfl⟩
      | true =>
        right
        dsimp only
        rw [if_pos rfl]
        rw [if_neg (by simp), curSet_eq hs.unique (cur_mem hn)]
        have hold : oldSets { sets := l, new := some n.set.name } = others l n.set.name := rfl
        rw [hold, Option.map_some]
        cases hev : Scale.isScalingEvent d.spec ((others l n.set.name).map (·.set)) (some n.set) with
        | true => exact .inl ⟨rfl, rfl, rfl⟩
        | false => exact .inr ⟨rfl, rfl, by simp [hr]⟩

theorem resize_rel {R : FSet → FSet → Prop} {l : List FSet} {r : List Scale.MSet} (hmiss : ∀ a ∈ l, (∀ s ∈ r, s.name ≠ a.set.name) → R a a)
    (hhit : ∀ a ∈ l, ∀ s ∈ r, s.name = a.set.name → R a { a with set := s }) : List.Forall₂ R l (resize l r) := by
  refine forall2_map _ _ fun a ha => ?_
  split
  · rename_i s hs
    exact hhit a ha s (List.mem_of_find?_eq_some hs) (by simpa using List.find?_some hs)
  · rename_i hs
    refine hmiss a ha fun s hsr he => ?_
    have := List.find?_eq_none.1 hs s hsr
    simp [he] at this

theorem mem_parts {l : List FSet} {n : FSet} (hn : n ∈ l) (s : Scale.MSet) :
    s ∈ (others l n.set.name).map (·.set) ++ [n.set] → ∃ f ∈ l, f.set = s := by
  intro h
  rcases List.mem_append.1 h with h | h
  · obtain ⟨f, hf, rfl⟩ := List.mem_map.1 h
    exact ⟨f, (mem_others.1 hf).1, rfl⟩
  · exact ⟨n, hn, (List.mem_singleton.1 h).symm⟩

theorem parts_mem {l : List FSet} (hu : Unique l) {n : FSet} (hn : n ∈ l) {f : FSet} (hf : f ∈ l) :
    f.set ∈ (others l n.set.name).map (·.set) ++ [n.set] := by
  by_cases hc : f.set.name = n.set.name
  · rw [unique_eq l hu f n hf hn hc]; simp
  · exact List.mem_append_left _ (List.mem_map.2 ⟨f, mem_others.2 ⟨hf, hc⟩, rfl⟩)

theorem event_iff {d : FDep} {l : List FSet} (hu : Unique l) {n : FSet} (hn : n ∈ l) :
    Scale.isScalingEvent d.spec ((others l n.set.name).map (·.set)) (some n.set) = true ↔ ((∀ f ∈ l, ¬ 0 < f.set.spec) ∧ 0 < d.spec.replicas) ∨ pending d l = true := by
  unfold Scale.isScalingEvent
  dsimp only
  have hact : ∀ s, s ∈ Scale.active ((others l n.set.name).map (·.set) ++ [n.set]) ↔ ∃ f ∈ l, f.set = s ∧ 0 < f.set.spec := by
    intro s
    unfold Scale.active
    rw [List.mem_filter]
    constructor
    · rintro ⟨h1, h2⟩
      obtain ⟨f, hf, rfl⟩ := mem_parts hn s h1
      exact ⟨f, hf, rfl, by simpa using h2⟩
    · rintro ⟨f, hf, rfl, h⟩
      exact ⟨parts_mem hu hn hf, by simpa using h⟩
  have hzero : (Scale.active ((others l n.set.name).map (·.set) ++ [n.set])).length = 0 ↔ ∀ f ∈ l, ¬ 0 < f.set.spec := by
    rw [List.length_eq_zero_iff, List.eq_nil_iff_forall_not_mem]
    constructor
    · intro h f hf hp
      exact h f.set ((hact _).2 ⟨f, hf, rfl, hp⟩)
    · intro h s hs
      obtain ⟨f, hf, _, hp⟩ := (hact s).1 hs
      exact h f hf hp
  have hany : ((Scale.active ((others l n.set.name).map (·.set) ++ [n.set])).any fun s => match s.desired.bind atoi with | none => false | some v => v != d.spec.replicas) = true
      ↔ pending d l = true := by
    rw [pending_iff, List.any_eq_true]
    constructor
    · rintro ⟨s, hs, h⟩
      obtain ⟨f, hf, rfl, hp⟩ := (hact s).1 hs
      refine ⟨f, hf, hp, ?_⟩
      cases hv : f.set.desired.bind atoi with
      | none => rw [hv] at h; simp at h
      | some v => rw [hv] at h; exact ⟨v, rfl, by simpa using h⟩
    · rintro ⟨f, hf, hp, v, h1, h2⟩
      exact ⟨f.set, (hact _).2 ⟨f, hf, rfl, hp⟩, by rw [h1]; simpa using h2⟩
  split
  · rename_i h
    exact ⟨fun _ => .inl ⟨hzero.1 h.1, h.2⟩, fun _ => rfl⟩
  · rename_i h
    refine Iff.trans hany ?_
    constructor
    · exact .inr
    · rintro (⟨h1, h2⟩ | h1)
      · exact absurd ⟨hzero.2 h1, h2⟩ h
      · exact h1

theorem wanting_perm {l : List FSet} (hu : Unique l) {n : FSet} (hn : n ∈ l) {srt : List Scale.MSet → List Scale.MSet} (hs : ∀ x, (srt x).Perm x) :
    (Scale.active (srt ((others l n.set.name).map (·.set)) ++ [n.set])).length = wanting l := by
  have h1 : (srt ((others l n.set.name).map (·.set)) ++ [n.set]).Perm (l.map (·.set)) := by
    refine ((hs _).append_right _).trans ?_
    have := split_all { sets := l, new := some n.set.name } hu
    rw [curSet_eq hu hn] at this
    exact this
  have h2 := (h1.filter fun s => decide (s.spec > 0)).length_eq
  unfold Scale.active wanting
  rw [h2, List.filter_map, List.length_map]
  rfl

/-- what `scale` finds when a change is pending -/
theorem find_target {d : FDep} {e : Scale.Env} (he : e.Sorts) {l : List FSet} (hu : Unique l) (hnn : ∀ f ∈ l, 0 ≤ f.set.spec) {n : FSet} (hn : n ∈ l) (hsg : Single d l)
    (hev : Scale.isScalingEvent d.spec ((others l n.set.name).map (·.set)) (some n.set) = true) :
    ∃ t ∈ l, Scale.findActiveOrLatest e ((others l n.set.name).map (·.set)) (some n.set) = some t.set ∧ (∀ f ∈ l, f.set.name ≠ t.set.name → f.set.spec = 0) ∧
      (t = n ∨ pending d l = true ∧ 0 < t.set.spec) := by
  have hlen := wanting_perm hu hn he.1
  have hmem : ∀ s ∈ Scale.active (e.srtNewest ((others l n.set.name).map (·.set)) ++ [n.set]), ∃ f ∈ l, f.set = s ∧ 0 < f.set.spec := by
    intro s hs
    unfold Scale.active at hs
    obtain ⟨h1, h2⟩ := List.mem_filter.1 hs
    obtain ⟨f, hf, rfl⟩ := mem_parts hn s (by
      rcases List.mem_append.1 h1 with h | h
      · exact List.mem_append_left _ ((he.1 _).mem_iff.1 h)
      · exact List.mem_append_right _ h)
    exact ⟨f, hf, rfl, by simpa using h2⟩
  have hinv : ∀ f ∈ l, 0 < f.set.spec → f.set ∈ Scale.active (e.srtNewest ((others l n.set.name).map (·.set)) ++ [n.set]) := by
    intro f hf hp
    unfold Scale.active
    refine List.mem_filter.2 ⟨?_, by simpa using hp⟩
    rcases List.mem_append.1 (parts_mem hu hn hf) with h | h
    · exact List.mem_append_left _ ((he.1 _).mem_iff.2 h)
    · exact List.mem_append_right _ h
  unfold Scale.findActiveOrLatest
  rw [Option.toList_some]
  generalize Scale.active (e.srtNewest ((others l n.set.name).map (·.set)) ++ [n.set]) = act at hlen hmem hinv
  match act, hlen, hmem, hinv with
  | [], _, _, hinv =>
    refine ⟨n, hn, rfl, fun f hf _ => ?_, .inl rfl⟩
    have := hnn f hf
    have : ¬ 0 < f.set.spec := fun h => by have := hinv f hf h; simp at this
    omega
  | [s], hlen, hmem, hinv =>
    obtain ⟨t, ht, hts, hp⟩ := hmem s (by simp)
    refine ⟨t, ht, by rw [hts], fun f hf hne => ?_, .inr ⟨?_, hp⟩⟩
    · have := hnn f hf
      have : ¬ 0 < f.set.spec := fun h => by
        have := hinv f hf h
        rw [List.mem_singleton, ← hts] at this
        rw [this] at hne; exact hne rfl
      omega
    · rcases (event_iff hu hn).1 hev with ⟨h, _⟩ | h
      · exact absurd hp (h t ht)
      · exact h
  | x :: y :: r, hlen, hmem, hinv =>
    exfalso
    obtain ⟨t, ht, hts, hp⟩ := hmem x (by simp)
    rcases (event_iff hu hn).1 hev with ⟨h, _⟩ | h
    · exact absurd hp (h t ht)
    · have := hsg h
      rw [← hlen] at this
      simp at this

theorem Alike.of_set {a b : FSet} (h1 : b.set = a.set) (h2 : b.tmpl = a.tmpl) (h3 : b.annotations = a.annotations) (h4 : b.minReady = a.minReady) : Alike a b :=
  ⟨by rw [h1], by rw [h1], by rw [h1], by rw [h1], by rw [h1], h2, h3, h4⟩

theorem sync_outcome {d : FDep} (hd : Plain d) {e : Env} {l : List FSet} (he : e.Fine l) (hs : SoundIf False d l) (hsg : Single d l) {n : FSet} (hn : cur d l = some n)
    (hw : toWrite d l n = false) (hdep : e.depOk = true) (hev : Scale.isScalingEvent d.spec ((others l n.set.name).map (·.set)) (some n.set) = true) :
    Outcome d e l (e.Good l) (sync d e l) ∧ (e.Good l → pending d (sync d e l) = false) := by
  have hnl := cur_mem hn
  have hu := hs.unique
  obtain ⟨t, ht, hfind, hz, hor⟩ := find_target he.newest hu (fun f hf => (hs.nonneg f hf).1) hnl hsg hev
  rw [sync_sizes hd hs hn hw hdep]
  unfold Scale.scale
  rw [hfind]
  dsimp only
  rw [Option.toList_some]
  have hres : ∀ x : Scale.MSet, x.name = t.set.name → ∀ a ∈ l, ∀ s ∈ Scale.replaceSet ((others l n.set.name).map (·.set) ++ [n.set]) x, s.name = a.set.name →
      (a.set.name = t.set.name → s = x) ∧ (a.set.name ≠ t.set.name → s = a.set) := by
    intro x hx a ha s hs hname
    unfold Scale.replaceSet at hs
    obtain ⟨y, hy, rfl⟩ := List.mem_map.1 hs
    obtain ⟨f, hf, rfl⟩ := mem_parts hnl y hy
    by_cases hc : f.set.name = x.name
    · rw [if_pos hc] at hname ⊢
      exact ⟨fun _ => rfl, fun h => absurd (hname.symm.trans hx) h⟩
    · rw [if_neg hc] at hname ⊢
      have := unique_eq l hu f a hf ha hname
      subst this
      exact ⟨fun h => absurd (h.trans hx.symm) hc, fun _ => rfl⟩
  have hhas : ∀ x : Scale.MSet, ∀ a ∈ l, a.set.name = t.set.name → x.name = t.set.name → ∃ s ∈ Scale.replaceSet ((others l n.set.name).map (·.set) ++ [n.set]) x, s.name = a.set.name := by
    intro x a ha h1 h2
    refine ⟨x, ?_, by rw [h1, h2]⟩
    unfold Scale.replaceSet
    exact List.mem_map.2 ⟨t.set, parts_mem hu hnl ht, by rw [if_pos h2.symm]⟩
  generalize hx : (if t.set.spec = d.spec.replicas then Scale.scaleSet d.spec (e.scale.ok t.set) t.set d.spec.replicas
    else Scale.scaleSetEv d.spec (e.scale.ok t.set) t.set d.spec.replicas) = x
  have hx' : x.1 = scaledTo d t.set d.spec.replicas ∨ x.1 = t.set ∧ ¬ e.Good l := by
    have hsc : x = Scale.scaleSet d.spec (e.scale.ok t.set) t.set d.spec.replicas := by
      rw [← hx]
      split
      · rfl
      · rename_i h; unfold Scale.scaleSetEv; rw [if_neg h]
    rw [hsc]
    cases hok : e.scale.ok t.set with
    | true => exact .inl (Scale.scaleSet_full d.spec t.set d.spec.replicas).1
    | false =>
      rcases Scale.scaleSet_or d.spec false t.set d.spec.replicas with h | h
      · exact .inr ⟨h, fun hg => by have := hg.smooth.calls t.set; rw [hok] at this; cases this⟩
      · exact .inl h
  rcases hx' with h | ⟨h, hg⟩
  · have hxn : x.1.name = t.set.name := by rw [h]; rfl
    have hrel : List.Forall₂ (Retarget d t) l (resize l (Scale.replaceSet ((others l n.set.name).map (·.set) ++ [n.set]) x.1)) := by
      refine resize_rel (fun a ha hm => ?_) (fun a ha s hs hname => ?_)
      · refine ⟨⟨rfl, rfl, rfl, rfl⟩, fun hc => ?_, fun _ => rfl⟩
        obtain ⟨s, hs, hsn⟩ := hhas x.1 a ha hc hxn
        exact absurd hsn (hm s hs)
      · obtain ⟨h1, h2⟩ := hres x.1 hxn a ha s hs hname
        exact ⟨⟨hname, rfl, rfl, rfl⟩, fun hc => by rw [← h]; exact h1 hc, h2⟩
    exact ⟨.target n t hn hw ht hz hor hrel (forall2_refl Alike.refl _), fun _ => target_pending hd hz hrel⟩
  · refine ⟨.same (fun g => absurd g hg) (resize_rel (fun a _ _ => Alike.refl a) (fun a ha s hs hname => ?_)), fun g => absurd g hg⟩
    obtain ⟨h1, h2⟩ := hres x.1 (by rw [h]) a ha s hs hname
    refine Alike.of_set ?_ rfl rfl rfl
    by_cases hc : a.set.name = t.set.name
    · rw [unique_eq l hu a t ha ht hc, ← h]; exact h1 hc
    · exact h2 hc

/-- nothing runs when the sets are empty -/
theorem none_running {old : List Scale.MSet} {new : Option Scale.MSet} {st : String → Int} {mc : String → Nat} (h : ∀ s ∈ old, st s.name = 0 ∧ mc s.name = 0) :
    Recreate.oldMachinesRunning ⟨old, new, st, mc⟩ = false := by
  unfold Recreate.oldMachinesRunning
  dsimp only
  have hsum : (old.map fun s => st s.name).sum = 0 := by
    have : ∀ s ∈ old, st s.name = 0 := fun s hs => by have := (h s hs).1; exact this
    clear h
    induction old with
    | nil => rfl
    | cons a l ih =>
      rw [List.map_cons, List.sum_cons, this a (by simp), ih fun s hs => this s (by simp [hs])]; rfl
  rw [hsum, if_neg (by omega), List.any_eq_false]
  intro x hx
  split
  · simp
  · rename_i hne
    rcases List.mem_append.1 hx with hx | hx
    · obtain ⟨s, hs, rfl⟩ := List.mem_map.1 hx
      simp [(h s hs).2]
    · obtain ⟨s, hs, rfl⟩ := List.mem_map.1 hx
      cases new with
      | none => cases hs
      | some n =>
        rw [Option.toList_some, List.mem_singleton] at hs
        rw [hs] at hne; exact absurd rfl hne

/-- sets scaled to zero -/
theorem zeroed_rel {d : FDep} {ok : Scale.MSet → Bool} {l : List FSet} (hu : Unique l) {c : Option String} {old : List FSet} (hold : ∀ f, f ∈ old ↔ f ∈ l ∧ some f.set.name ≠ c)
    {new : Option Scale.MSet} (hnew : ∀ s ∈ new.toList, ∃ f ∈ l, f.set = s) :
    List.Forall₂ (Zeroed d c) l (resize l (((old.map (·.set)).filter fun s => !(s.spec > 0)) ++ (Scale.zeroAll d.spec ok (Scale.active (old.map (·.set)))).1 ++ new.toList)) ∧
    ((∀ s, ok s = true) → (∀ f ∈ l, 0 ≤ f.set.spec) → (∀ s ∈ new.toList, some s.name = c) →
      ∀ b ∈ resize l (((old.map (·.set)).filter fun s => !(s.spec > 0)) ++ (Scale.zeroAll d.spec ok (Scale.active (old.map (·.set)))).1 ++ new.toList),
        some b.set.name ≠ c → b.set.spec = 0) := by
  have hact : ∀ s ∈ Scale.active (old.map (·.set)), ∃ f ∈ old, f.set = s ∧ 0 < f.set.spec := by
    intro s hs
    unfold Scale.active at hs
    obtain ⟨h1, h2⟩ := List.mem_filter.1 hs
    obtain ⟨f, hf, rfl⟩ := List.mem_map.1 h1
    exact ⟨f, hf, rfl, by simpa using h2⟩
  have hcases : ∀ s ∈ ((old.map (·.set)).filter fun s => !(s.spec > 0)) ++ (Scale.zeroAll d.spec ok (Scale.active (old.map (·.set)))).1 ++ new.toList,
      ∃ f ∈ l, f.set.name = s.name ∧ (s = f.set ∨ some f.set.name ≠ c ∧ 0 < f.set.spec ∧ s = scaledTo d f.set 0) := by
    intro s hs
    rcases List.mem_append.1 hs with hs | hs
    · rcases List.mem_append.1 hs with hs | hs
      · obtain ⟨f, hf, rfl⟩ := List.mem_map.1 (List.mem_filter.1 hs).1
        exact ⟨f, ((hold f).1 hf).1, rfl, .inl rfl⟩
      · obtain ⟨x, hx, h⟩ := Scale.zeroAll_mem d.spec ok _ s hs
        obtain ⟨f, hf, rfl, h0⟩ := hact x hx
        obtain ⟨k1, k2⟩ := (hold f).1 hf
        rcases h with rfl | rfl
        · exact ⟨f, k1, rfl, .inl rfl⟩
        · exact ⟨f, k1, rfl, .inr ⟨k2, h0, rfl⟩⟩
    · obtain ⟨f, hf, rfl⟩ := hnew s hs
      exact ⟨f, hf, rfl, .inl rfl⟩
  refine ⟨resize_rel (fun a _ _ => ⟨⟨rfl, rfl, rfl, rfl⟩, .inl rfl⟩) (fun a ha s hs hname => ⟨⟨hname, rfl, rfl, rfl⟩, ?_⟩), ?_⟩
  · obtain ⟨f, hf, h1, h2⟩ := hcases s hs
    rw [unique_eq l hu f a hf ha (h1.trans hname)] at h2
    exact h2
  · intro hok hnn hnc b hb hne
    unfold resize at hb
    obtain ⟨a, ha, hab⟩ := List.mem_map.1 hb
    have hmem : ∃ s ∈ ((old.map (·.set)).filter fun s => !(s.spec > 0)) ++ (Scale.zeroAll d.spec ok (Scale.active (old.map (·.set)))).1 ++ new.toList, s.name = a.set.name := by
      have hane : some a.set.name ≠ c := by
        intro hac
        refine hne ?_
        split at hab
        · rename_i s hs
          rw [← hab, ← hac]
          have := List.find?_some hs
          rw [show s.name = a.set.name by simpa using this]
        · rw [← hab]; exact hac
      have hao : a ∈ old := (hold a).2 ⟨ha, hane⟩
      by_cases h0 : 0 < a.set.spec
      · have h1 : a.set ∈ Scale.active (old.map (·.set)) := by
          unfold Scale.active
          exact List.mem_filter.2 ⟨List.mem_map.2 ⟨a, hao, rfl⟩, by simpa using h0⟩
        refine ⟨{ a.set with spec := 0, desired := some (Scale.desiredText d.spec), maxR := some (Scale.maxText d.spec) }, ?_, rfl⟩
        refine List.mem_append_left _ (List.mem_append_right _ ?_)
        rw [Scale.zeroAll_full d.spec ok hok _ (fun s hs => by obtain ⟨f, _, rfl, h⟩ := hact s hs; exact h)]
        exact List.mem_map.2 ⟨a.set, h1, rfl⟩
      · exact ⟨a.set, List.mem_append_left _ (List.mem_append_left _ (List.mem_filter.2 ⟨List.mem_map.2 ⟨a, hao, rfl⟩, by simpa using h0⟩)), rfl⟩
    split at hab
    · rename_i s hs
      rw [← hab]
      rw [← hab] at hne
      change some s.name ≠ c at hne
      show s.spec = 0
      rcases List.mem_append.1 (List.mem_of_find?_eq_some hs) with hs | hs
      · rcases List.mem_append.1 hs with hs | hs
        · obtain ⟨h1, h2⟩ := List.mem_filter.1 hs
          obtain ⟨f, hf, rfl⟩ := List.mem_map.1 h1
          have := hnn f ((hold f).1 hf).1
          have : ¬ f.set.spec > 0 := by simpa using h2
          omega
        · rw [Scale.zeroAll_full d.spec ok hok _ (fun s hs => by obtain ⟨f, _, rfl, h⟩ := hact s hs; exact h)] at hs
          obtain ⟨x, _, rfl⟩ := List.mem_map.1 hs
          rfl
      · exact absurd (hnc s hs) hne
    · rename_i hs
      obtain ⟨s, hs1, hs2⟩ := hmem
      have := List.find?_eq_none.1 hs s hs1
      simp [hs2] at this

theorem active_nil {l : List FSet} (hnn : ∀ f ∈ l, 0 ≤ f.set.spec) (h : ¬ (Scale.active (l.map (·.set))).length > 0) : ∀ f ∈ l, f.set.spec = 0 := by
  intro f hf
  have h0 := hnn f hf
  have : ¬ 0 < f.set.spec := fun hp => h (List.length_pos_of_mem (a := f.set) (by
    unfold Scale.active
    exact List.mem_filter.2 ⟨List.mem_map.2 ⟨f, hf, rfl⟩, by simpa using hp⟩))
  omega

theorem status_of {l : List FSet} (hu : Unique l) {f : FSet} (hf : f ∈ l) : ((l.find? fun x => x.set.name == f.set.name).map (·.status)).getD 0 = f.status := by
  have := curSet_eq hu hf
  unfold curSet at this
  dsimp only at this
  rw [this]; rfl

theorem recreate_outcome_cur {d : FDep} {e : Env} {l : List FSet} (hs : SoundIf False d l) {n : FSet} (hn : cur d l = some n) (hw : toWrite d l n = false)
    (hdep : e.depOk = true) : Outcome d e l (e.Good l) (rolloutRecreate d e l) := by
  have hnl := cur_mem hn
  have hu := hs.unique
  have hnn : ∀ f ∈ others l n.set.name, 0 ≤ f.set.spec := fun f hf => (hs.nonneg f (mem_others.1 hf).1).1
  unfold rolloutRecreate
  rw [getNew_cur hn, sync_rest hw, hdep]
  dsimp only
  rw [if_pos rfl, if_neg (by simp), curSet_eq hu hnl]
  have hold : oldSets { sets := l, new := some n.set.name } = others l n.set.name := rfl
  rw [hold, Option.map_some]
  simp only [Option.isNone_some, Bool.false_and, Bool.false_eq_true, if_false]
  rw [curSet_eq hu hnl, Option.map_some, hold]
  unfold Recreate.rolloutRecreate
  dsimp only
  rw [if_neg (by simp)]
  by_cases h1 : (Scale.active ((others l n.set.name).map (·.set))).length > 0
  · rw [if_pos h1]
    dsimp only
    obtain ⟨z1, z2⟩ := zeroed_rel (d := d) (ok := e.scale.ok) (l := l) hu (c := some n.set.name) (old := others l n.set.name)
      (fun f => by rw [mem_others]; simp) (new := some n.set) (fun s hs => ⟨n, hnl, (by simpa using hs : s = n.set).symm⟩)
    refine .zero (by rw [hn]; exact z1) (fun _ => ?_) (fun g => ?_) (cleanup_alike d e _ _)
    · obtain ⟨s, hs⟩ := List.exists_mem_of_length_pos h1
      unfold Scale.active at hs
      obtain ⟨k1, k2⟩ := List.mem_filter.1 hs
      obtain ⟨f, hf, rfl⟩ := List.mem_map.1 k1
      obtain ⟨m1, m2⟩ := mem_others.1 hf
      exact ⟨f, m1, by rw [hn]; simpa using m2, by simpa using k2⟩
    · rw [hn]
      exact z2 g.smooth.calls (fun f hf => (hs.nonneg f hf).1) (fun s hs => by rw [(by simpa using hs : s = n.set)])
  · rw [if_neg h1]
    have hz := active_nil hnn h1
    have hnoch : ∀ r2 : Scale.MSet, r2 = n.set → List.Forall₂ Alike l (rolloutCleanup d e (others l n.set.name) (resize l ((others l n.set.name).map (·.set) ++ (some r2).toList))) := by
      intro r2 hr2
      refine forall2_trans (R := Alike) (S := Alike) (fun a b c p q => ?_) (resize_rel (fun a _ _ => Alike.refl a) (fun a ha s hs hname => ?_)) (cleanup_alike d e _ _)
      · exact ⟨q.name.trans p.name, q.spec.trans p.spec, q.avail.trans p.avail, q.desired.trans p.desired, q.maxR.trans p.maxR, q.tmpl.trans p.tmpl,
          q.annotations.trans p.annotations, q.minReady.trans p.minReady⟩
      · rw [hr2] at hs
        obtain ⟨f, hf, rfl⟩ := mem_parts hnl s hs
        rw [unique_eq l hu f a hf ha hname]
        exact Alike.refl a
    by_cases h2 : Recreate.oldMachinesRunning ⟨(others l n.set.name).map (·.set), some n.set,
        fun m => ((l.find? fun f => f.set.name == m).map (·.status)).getD 0, e.machines⟩ = true
    · rw [if_pos h2]
      refine .same (fun g => ?_) (hnoch n.set rfl)
      rw [none_running (fun s hs => ?_)] at h2
      · cases h2
      · obtain ⟨f, hf, rfl⟩ := List.mem_map.1 hs
        have := g.empty f (mem_others.1 hf).1 (hz f hf)
        exact ⟨by rw [status_of hu (mem_others.1 hf).1]; exact this.1, this.2⟩
    · rw [if_neg h2]
      dsimp only
      rcases Scale.scaleSetEv_or d.spec (e.scale.ok n.set) n.set d.spec.replicas with h | h
      · refine .same (fun g => ?_) (hnoch _ h)
        unfold Rests
        rw [rank_some hn, hw, show wanting (others l n.set.name) = 0 from wanting_zero.2 fun f hf => by have := hz f hf; omega, if_pos]
        · simp
        · have := Scale.scaleSet_full d.spec n.set d.spec.replicas
          unfold Scale.scaleSetEv at h
          rw [g.smooth.calls] at h
          split at h
          · assumption
          · rw [this.1] at h
            exact (congrArg Scale.MSet.spec h).symm
      · rw [h]
        refine .target n n hn hw hnl (fun f hf hne => hz f (mem_others.2 ⟨hf, hne⟩)) (.inl rfl)
          (resize_rel (fun a ha hm => ?_) (fun a ha s hs hname => ?_)) (cleanup_alike d e _ _)
        · refine ⟨⟨rfl, rfl, rfl, rfl⟩, fun hc => ?_, fun _ => rfl⟩
          exact absurd hc.symm (hm (scaledTo d n.set d.spec.replicas) (List.mem_append_right _ (List.mem_singleton.2 rfl)))
        · refine ⟨⟨hname, rfl, rfl, rfl⟩, fun hc => ?_, fun hc => ?_⟩
          · rcases List.mem_append.1 hs with hs | hs
            · obtain ⟨f, hf, rfl⟩ := List.mem_map.1 hs
              exact absurd (hname.trans hc) (mem_others.1 hf).2
            · exact List.mem_singleton.1 hs
          · rcases List.mem_append.1 hs with hs | hs
            · obtain ⟨f, hf, rfl⟩ := List.mem_map.1 hs
              show f.set = a.set
              rw [unique_eq l hu f a (mem_others.1 hf).1 ha hname]
            · rw [Option.toList_some, List.mem_singleton] at hs
              rw [hs] at hname
              exact absurd hname.symm hc

theorem unique_append_fresh {l : List FSet} {x : FSet} (hu : Unique l) (h : ∀ f ∈ l, f.set.name ≠ x.set.name) : Unique (l ++ [x]) := by
  unfold Unique at *
  rw [List.map_append, List.nodup_append]
  refine ⟨hu, by simp, fun a ha b hb => ?_⟩
  obtain ⟨f, hf, rfl⟩ := List.mem_map.1 ha
  simp at hb
  rw [hb]; exact h f hf

theorem recreate_outcome_none {d : FDep} (hr : d.spec.strategy = .recreate) {e : Env} {l : List FSet} (he : e.Fine l) (hs : SoundIf False d l)
    (hn : cur d l = none) : Outcome d e l (e.Good l) (rolloutRecreate d e l) := by
  have hu := hs.unique
  have hnn : ∀ f ∈ l, 0 ≤ f.set.spec := fun f hf => (hs.nonneg f hf).1
  unfold rolloutRecreate
  have hgn : getNew d e false l = { sets := l } := by rw [getNew_none hn]; rfl
  rw [hgn]
  dsimp only
  rw [if_neg (by simp), show curSet { sets := l } = none from rfl, show oldSets { sets := l } = l from rfl, Option.map_none]
  simp only [Option.isNone_none, Bool.true_and]
  have hsame : List.Forall₂ Alike l (rolloutCleanup d e l (resize l (l.map (·.set) ++ (none : Option Scale.MSet).toList))) := by
    refine forall2_trans (R := Alike) (S := Alike) (fun a b c p q => ?_) (resize_rel (fun a _ _ => Alike.refl a) (fun a ha s hs hname => ?_)) (cleanup_alike d e _ _)
    · exact ⟨q.name.trans p.name, q.spec.trans p.spec, q.avail.trans p.avail, q.desired.trans p.desired, q.maxR.trans p.maxR, q.tmpl.trans p.tmpl,
        q.annotations.trans p.annotations, q.minReady.trans p.minReady⟩
    · rw [Option.toList_none, List.append_nil] at hs
      obtain ⟨f, hf, rfl⟩ := List.mem_map.1 hs
      rw [unique_eq l hu f a hf ha hname]
      exact Alike.refl a
  by_cases h1 : (Scale.active (l.map (·.set))).length > 0
  · rw [decide_eq_true h1, Bool.true_or, Bool.not_true]
    simp only [Bool.false_eq_true, if_false]
    rw [show curSet { sets := l } = none from rfl, show oldSets { sets := l } = l from rfl, Option.map_none]
    unfold Recreate.rolloutRecreate
    dsimp only
    rw [if_neg (by simp), if_pos h1]
    dsimp only
    obtain ⟨z1, z2⟩ := zeroed_rel (d := d) (ok := e.scale.ok) (l := l) hu (c := none) (old := l) (fun f => by simp) (new := none) (fun s hs => by simp at hs)
    refine .zero (by rw [hn]; exact z1) (fun _ => ?_) (fun g => ?_) (cleanup_alike d e _ _)
    · obtain ⟨s, hs⟩ := List.exists_mem_of_length_pos h1
      unfold Scale.active at hs
      obtain ⟨k1, k2⟩ := List.mem_filter.1 hs
      obtain ⟨f, hf, rfl⟩ := List.mem_map.1 k1
      exact ⟨f, hf, by rw [hn]; simp, by simpa using k2⟩
    · rw [hn]
      exact z2 g.smooth.calls hnn (fun s hs => by simp at hs)
  · have hz := active_nil hnn h1
    by_cases h2 : Recreate.oldMachinesRunning ⟨l.map (·.set), none, fun m => ((l.find? fun f => f.set.name == m).map (·.status)).getD 0, e.machines⟩ = true
    · rw [h2, Bool.or_true, Bool.not_true]
      simp only [Bool.false_eq_true, if_false]
      rw [show curSet { sets := l } = none from rfl, show oldSets { sets := l } = l from rfl, Option.map_none]
      unfold Recreate.rolloutRecreate
      dsimp only
      rw [if_neg (by simp), if_neg h1, if_pos h2]
      refine .same (fun g => ?_) hsame
      rw [none_running (fun s hs => ?_)] at h2
      · cases h2
      · obtain ⟨f, hf, rfl⟩ := List.mem_map.1 hs
        have := g.empty f hf (hz f hf)
        exact ⟨by rw [status_of hu hf]; exact this.1, this.2⟩
    · have hm : ∀ f ∈ l, e.machines f.set.name = 0 := by
        intro f hf
        unfold Recreate.oldMachinesRunning at h2
        split at h2
        · exact absurd rfl h2
        · by_cases h0 : e.machines f.set.name = 0
          · exact h0
          · refine absurd (List.any_eq_true.2 ⟨f.set.name, List.mem_append_left _ (List.mem_map.2 ⟨f.set, List.mem_map.2 ⟨f, hf, rfl⟩, rfl⟩), ?_⟩) h2
            simp only [Option.map_none, reduceCtorEq, if_false]
            exact decide_eq_true (by omega)
      rw [decide_eq_false h1, Bool.false_or, Bool.eq_false_iff.2 h2, Bool.not_false]
      simp only [if_true]
      rw [getNew_none hn, if_pos rfl]
      unfold createCurrent
      rw [show newReplicas d.spec (l.map msOf ++ [{ spec := 0 }]) { spec := 0 } = some d.spec.replicas by unfold newReplicas; rw [hr]]
      dsimp only
      cases hc : e.created with
      | failed => exact .same (fun g => by have := g.done; rw [hc] at this; cases this) (forall2_refl Alike.refl l)
      | existing f => exact absurd hc (he.unseen f)
      | doneThenError => exact .create hn hz hm (forall2_refl Alike.refl _)
      | done =>
        dsimp only
        rw [if_neg (by simp)]
        have hfr : ∀ f ∈ l, f.set.name ≠ (newSet d e l d.spec.replicas).set.name := he.fresh
        have hcs := curSet_fresh hfr
        change curSet { sets := l ++ [newSet d e l d.spec.replicas], new := some e.fresh } = _ at hcs
        rw [hcs, Option.map_some]
        unfold Recreate.rolloutRecreate
        dsimp only
        rw [if_neg (by simp), if_neg h1, if_neg h2]
        have hev : ∀ ok, (Scale.scaleSetEv d.spec ok (newSet d e l d.spec.replicas).set d.spec.replicas).1 = (newSet d e l d.spec.replicas).set := by
          intro ok; unfold Scale.scaleSetEv; rw [if_pos (show (newSet d e l d.spec.replicas).set.spec = d.spec.replicas from rfl)]
        rw [hev]
        have huc : Unique (l ++ [newSet d e l d.spec.replicas]) := unique_append_fresh hu hfr
        refine .create hn hz hm (forall2_trans (R := Alike) (S := Alike) (fun a b c p q => ?_) (resize_rel (fun a _ _ => Alike.refl a) (fun a ha s hs hname => ?_)) (cleanup_alike d e _ _))
        · exact ⟨q.name.trans p.name, q.spec.trans p.spec, q.avail.trans p.avail, q.desired.trans p.desired, q.maxR.trans p.maxR, q.tmpl.trans p.tmpl,
            q.annotations.trans p.annotations, q.minReady.trans p.minReady⟩
        · have : ∃ f ∈ l ++ [newSet d e l d.spec.replicas], f.set = s := by
            rcases List.mem_append.1 hs with hs | hs
            · obtain ⟨f, hf, rfl⟩ := List.mem_map.1 hs
              exact ⟨f, List.mem_append_left _ hf, rfl⟩
            · exact ⟨_, List.mem_append_right _ (List.mem_singleton.2 rfl), (List.mem_singleton.1 hs).symm⟩
          obtain ⟨f, hf, rfl⟩ := this
          rw [unique_eq _ huc f a hf ha hname]
          exact Alike.refl a

/-- what scaling or rolling out does for a deployment that recreates -/
theorem recreate_outcome {d : FDep} (hd : Plain d) (hr : d.spec.strategy = .recreate) {e : Env} {l : List FSet} (he : e.Fine l) (hs : SoundIf False d l)
    (hsg : Single d l) : Outcome d e l (e.Good l) (scaleOrRoll d e l) := by
  rcases scaleOrRoll_recreate hr (e := e) hs with ⟨n, hn, hw, h⟩ | ⟨n, hn, hw, ⟨hdep, h⟩ | ⟨hdep, hev, h⟩ | ⟨hdep, hev, h⟩⟩ | ⟨hn, h⟩
  · rw [h]
    cases hset : e.setOk with
    | true => exact .write n hn hw
    | false => exact .same (fun g => by have := g.smooth.set; rw [hset] at this; cases this) (forall2_refl Alike.refl l)
  · rw [h]
    exact .same (fun g => by have := g.smooth.dep; rw [hdep] at this; cases this) (forall2_refl Alike.refl l)
  · rw [h]; exact (sync_outcome hd he hs hsg hn hw hdep hev).1
  · rw [h]; exact recreate_outcome_cur hs hn hw hdep
  · rw [h]; exact recreate_outcome_none hr he hs hn

/-- what a run of a deployment that recreates does -/
theorem recreate_better {d : FDep} (hd : Plain d) (hr : d.spec.strategy = .recreate) {e : Env} {l : List FSet} (he : e.Fine l) (hs : SoundIf False d l)
    (hsg : Single d l) : Better d (e.Good l ∧ d.selectsAll = false) l (reconcile d e l).sets := by
  have hmain := recreate_outcome hd hr he hs hsg
  have hb := hmain.better hd he hs hsg
  rcases reconcile_rolls hd e l with h | h
  · refine ⟨by rw [h]; exact hsg, by rw [h]; exact .inr ⟨rfl, rfl⟩, fun hg h0 => ?_, fun b hb _ => by rw [h]; exact hb, fun h1 => by rw [h]; exact h1⟩
    rw [reconcile_smooth hd hg.2 hg.1.smooth]
    exact hb.good hg.1 h0
  · rw [h]
    exact ⟨hb.single, hb.less, fun hg => hb.good hg.1, hb.below, hb.one⟩

theorem rank_zero {d : FDep} {l : List FSet} (hnn : ∀ f ∈ l, 0 ≤ f.set.spec) (h : rank d l = 0) :
    ∃ n, cur d l = some n ∧ n.set.spec = d.spec.replicas ∧ ∀ f ∈ l, f.set.name ≠ n.set.name → f.set.spec = 0 := by
  cases hn : cur d l with
  | none => rw [rank_none hn] at h; omega
  | some n =>
    rw [rank_some hn] at h
    refine ⟨n, rfl, ?_, fun f hf hne => ?_⟩
    · by_cases hc : n.set.spec = d.spec.replicas
      · exact hc
      · rw [if_neg hc] at h; omega
    · have h0 : wanting (others l n.set.name) = 0 := by omega
      have := wanting_zero.1 h0 f (mem_others.2 ⟨hf, hne⟩)
      have := hnn f hf
      omega

/-- at most this many steps -/
theorem rank_le (d : FDep) (l : List FSet) : rank d l ≤ 2 * l.length + 4 := by
  have hw : ∀ l : List FSet, wanting l ≤ l.length := fun l => List.length_filter_le _ _
  cases hn : cur d l with
  | none => rw [rank_none hn]; have := hw l; omega
  | some n =>
    rw [rank_some hn]
    have h1 := Nat.le_trans (wanting_others_le l n.set.name) (hw l)
    have h2 := Bool.toNat_le (toWrite d l n)
    have h3 := Bool.toNat_le (pending d l && decide (0 < wanting (others l n.set.name)))
    split <;> omega

/-! ### A paused deployment -/

/-- a set after a run of a paused deployment that scales the set of this name -/
structure Moved (m : Option String) (a b : FSet) : Prop where
  name : b.set.name = a.set.name
  tmpl : b.tmpl.labels = a.tmpl.labels ∧ b.tmpl.body = a.tmpl.body
  miss : m ≠ some a.set.name → b.set.spec = a.set.spec

/-- the set that is scaled is the one that wants machines; if there is none, the one of the current template if it exists -/
structure Chosen (d : FDep) (l : List FSet) (m : String) : Prop where
  rest : ∀ f ∈ l, f.set.name ≠ m → f.set.spec = 0
  first : ∀ n, cur d l = some n → (∀ f ∈ l, f.set.spec = 0) → m = n.set.name
  mem : ∃ t ∈ l, t.set.name = m

/-- a run of a paused deployment of whose sets at most one wants machines scales at most one set -/
theorem paused_target {d : FDep} {e : Env} {l : List FSet} (he : e.Fine l) (hu : Unique l) (hnn : ∀ f ∈ l, 0 ≤ f.set.spec)
    (h1 : wanting l ≤ 1) : ∃ m : Option String, List.Forall₂ (Moved m) l (sync d e l) ∧ ∀ s, m = some s → Chosen d l s := by
  have hgot : List.Forall₂ (fun a b => b.set = a.set ∧ b.tmpl.labels = a.tmpl.labels ∧ b.tmpl.body = a.tmpl.body) l (getNew d e false l).sets ∧
      ((getNew d e false l).err = true ∨ (getNew d e false l).new = (cur d l).map (·.set.name)) := by
    have hrefl : List.Forall₂ (fun a b : FSet => b.set = a.set ∧ b.tmpl.labels = a.tmpl.labels ∧ b.tmpl.body = a.tmpl.body) l l := forall2_refl (fun _ => ⟨rfl, rfl, rfl⟩) l
    cases hn : cur d l with
    | none => rw [getNew_none hn]; exact ⟨hrefl, .inr rfl⟩
    | some n =>
      rw [getNew_cur hn]
      cases hw : toWrite d l n with
      | true =>
        rw [sync_write hw]
        split
        · exact ⟨(written_forall2 (d := d) hu (cur_mem hn)).imp fun _ _ h => ⟨h.1, h.2.1⟩, .inr rfl⟩
        · exact ⟨hrefl, .inl rfl⟩
      | false =>
        rw [sync_rest hw]
        split
        · exact ⟨hrefl, .inr rfl⟩
        · exact ⟨hrefl, .inl rfl⟩
  unfold sync
  dsimp only
  generalize getNew d e false l = g at hgot
  obtain ⟨hrel0, hnew0⟩ := hgot
  have gu : Unique g.sets := unique_forall2 (fun a b hr => by rw [hr.1]) hrel0 hu
  have g1 : wanting g.sets ≤ 1 := by rw [wanting_congr (fun a b hr => by rw [hr.1]) hrel0]; exact h1
  have gnn : ∀ f ∈ g.sets, 0 ≤ f.set.spec := fun f hf' => by
    obtain ⟨a, ha, hr⟩ := mem_forall2 hrel0 f hf'
    rw [hr.1]; exact hnn a ha
  have gsame : g.sets.map (·.set) = l.map (·.set) := map_forall2 (g := fun f => f.set) (fun a b hr => hr.1) hrel0
  by_cases herr : g.err = true
  · rw [if_pos herr]
    exact ⟨none, hrel0.imp fun a b hr => ⟨by rw [hr.1], hr.2, fun _ => by rw [hr.1]⟩, fun s h => by cases h⟩
  rw [if_neg herr]
  have hnew0 := hnew0.resolve_left herr
  have hperm := split_all g gu
  have key : ∃ m : Option String, List.Forall₂ (Moved m) l (resize g.sets (Scale.scale d.spec e.scale ((oldSets g).map (·.set)) ((curSet g).map (·.set))).1) ∧
      ∀ s, m = some s → Chosen d l s := by
    have hcur : ∀ n, cur d l = some n → (curSet g).map (·.set) = some n.set := by
      intro n hn
      obtain ⟨b, hb, hr⟩ : ∃ b ∈ g.sets, b.set = n.set := by
        have : n.set ∈ g.sets.map (·.set) := by rw [gsame]; exact List.mem_map.2 ⟨n, cur_mem hn, rfl⟩
        exact List.mem_map.1 this
      unfold curSet
      rw [hnew0, hn]
      dsimp only [Option.map_some]
      cases hfd : g.sets.find? (fun f => f.set.name == n.set.name) with
      | none => exact absurd (List.find?_eq_none.1 hfd b hb) (by simp [hr])
      | some c =>
        have h2 := List.find?_some hfd
        have := unique_eq _ gu c b (List.mem_of_find?_eq_some hfd) hb (by simpa [hr] using h2)
        rw [this, Option.map_some, hr]
    generalize hold : (oldSets g).map (·.set) = old at hperm ⊢
    generalize hnew : (curSet g).map (·.set) = new at hperm hcur ⊢
    have hlen : (Scale.active (e.scale.srtNewest old ++ new.toList)).length = wanting g.sets := by
      have h2 := (((he.newest.1 old).append_right _).trans hperm |>.filter fun s => decide (s.spec > 0)).length_eq
      unfold Scale.active wanting
      rw [h2, List.filter_map, List.length_map]
      rfl
    have hback : ∀ s, s ∈ old ++ new.toList → ∃ f ∈ g.sets, f.set = s := fun s hs => List.mem_map.1 (hperm.mem_iff.1 hs)
    have hforth : ∀ f ∈ g.sets, f.set ∈ e.scale.srtNewest old ++ new.toList := by
      intro f hf
      exact ((he.newest.1 old).append_right _).mem_iff.2 (hperm.mem_iff.2 (List.mem_map.2 ⟨f, hf, rfl⟩))
    unfold Scale.scale
    cases hfind : Scale.findActiveOrLatest e.scale old new with
    | none =>
      dsimp only
      have hno : ¬ 2 ≤ wanting g.sets := by omega
      have hempty : g.sets = [] := by
        unfold Scale.findActiveOrLatest at hfind
        split at hfind
        · split at hfind
          · cases hfind
          · cases hs : e.scale.srtNewest old with
            | nil =>
              refine List.eq_nil_iff_forall_not_mem.2 fun f hf => ?_
              have := hforth f hf
              rw [hs] at this
              simp at this
            | cons x y => rw [hs] at hfind; cases hfind
        · cases hfind
        · rename_i h2 h3
          exfalso
          match hact : Scale.active (e.scale.srtNewest old ++ new.toList) with
          | [] => exact h2 hact
          | [x] => exact h3 x hact
          | x :: y :: r => rw [hact] at hlen; simp at hlen; omega
      have hl : l = [] := by
        rw [hempty, List.map_nil] at gsame
        exact List.map_eq_nil_iff.1 gsame.symm
      rw [hempty, hl]
      exact ⟨none, .nil, fun s h => by cases h⟩
    | some s =>
      dsimp only
      have hfa : s ∈ old ++ new.toList ∧ (∀ f ∈ g.sets, f.set.name ≠ s.name → f.set.spec = 0) ∧ ((∀ f ∈ g.sets, f.set.spec = 0) → ∀ x, new = some x → s = x) := by
        unfold Scale.findActiveOrLatest at hfind
        split at hfind
        · rename_i hact
          refine ⟨?_, fun f hf _ => ?_, fun _ x hx => ?_⟩
          · split at hfind
            · injection hfind with h; rw [h]; simp
            · have : s ∈ e.scale.srtNewest old := by
                revert hfind; cases e.scale.srtNewest old <;> simp
                intro h; simp [h]
              exact List.mem_append_left _ ((he.newest.1 old).mem_iff.1 this)
          · have h0 := gnn f hf
            have : ¬ 0 < f.set.spec := fun hp => by
              have : f.set ∈ Scale.active (e.scale.srtNewest old ++ new.toList) := List.mem_filter.2 ⟨hforth f hf, by simpa using hp⟩
              rw [hact] at this; cases this
            omega
          · rw [hx] at hfind
            injection hfind with h; exact h.symm
        · rename_i x hact
          injection hfind with h
          subst h
          have hx : x ∈ Scale.active (e.scale.srtNewest old ++ new.toList) := by rw [hact]; simp
          have hxm := ((he.newest.1 old).append_right _).mem_iff.1 (List.mem_filter.1 hx).1
          refine ⟨hxm, fun f hf hne => ?_, fun hz => ?_⟩
          · have h0 := gnn f hf
            have : ¬ 0 < f.set.spec := fun hp => by
              have : f.set ∈ Scale.active (e.scale.srtNewest old ++ new.toList) := List.mem_filter.2 ⟨hforth f hf, by simpa using hp⟩
              rw [hact, List.mem_singleton] at this
              rw [this] at hne; exact hne rfl
            omega
          · obtain ⟨f, hf, rfl⟩ := hback x hxm
            have h2 := (List.mem_filter.1 hx).2
            rw [hz f hf] at h2
            simp at h2
        · cases hfind
      generalize hx : (if s.spec = d.spec.replicas then Scale.scaleSet d.spec (e.scale.ok s) s d.spec.replicas
        else Scale.scaleSetEv d.spec (e.scale.ok s) s d.spec.replicas) = x
      have hxn : x.1.name = s.name := by
        rw [← hx]
        split
        · exact Scale.scaleSet_name _ _ _ _
        · exact Recreate.scaleSetEv_name _ _ _ _
      have hrel : List.Forall₂ (fun a b => (b.set.name = a.set.name ∧ b.tmpl = a.tmpl) ∧ (a.set.name ≠ s.name → b.set = a.set)) g.sets
          (resize g.sets (Scale.replaceSet (old ++ new.toList) x.1)) := by
        refine resize_rel (fun a _ _ => ⟨⟨rfl, rfl⟩, fun _ => rfl⟩) (fun a ha y hy hname => ⟨⟨hname, rfl⟩, fun hne => ?_⟩)
        unfold Scale.replaceSet at hy
        obtain ⟨z, hz, rfl⟩ := List.mem_map.1 hy
        by_cases hc : z.name = x.1.name
        · rw [if_pos hc] at hname
          exact absurd (hname.symm.trans hxn) hne
        · rw [if_neg hc] at hname ⊢
          obtain ⟨f, hf, rfl⟩ := hback z hz
          rw [unique_eq _ gu f a hf ha hname]
      have hboth : ∀ f ∈ l, ∃ b ∈ g.sets, b.set = f.set := fun f hf => by
        have : f.set ∈ g.sets.map (·.set) := by rw [gsame]; exact List.mem_map.2 ⟨f, hf, rfl⟩
        exact List.mem_map.1 this
      refine ⟨some s.name, forall2_trans (fun a b c p q => ?_) hrel0 hrel, fun m hm => ?_⟩
      · refine ⟨by rw [q.1.1, p.1], by rw [q.1.2]; exact p.2, fun hne => ?_⟩
        rw [q.2 fun h => hne (by rw [← h, p.1]), p.1]
      · cases hm
        refine ⟨fun f hf hne => ?_, fun n hn hz => ?_, ?_⟩
        · obtain ⟨b, hb, hr⟩ := hboth f hf
          rw [← hr] at hne ⊢
          exact hfa.2.1 b hb hne
        · have := hfa.2.2 (fun f hf => by obtain ⟨a, ha, hr⟩ := mem_forall2 hrel0 f hf; rw [hr.1]; exact hz a ha) n.set (hcur n hn)
          rw [this]
        · obtain ⟨t, ht, hts⟩ := hback s hfa.1
          obtain ⟨a, ha, hr⟩ := mem_forall2 hrel0 t ht
          exact ⟨a, ha, by rw [← hr.1, hts]⟩
  split
  · exact key
  · obtain ⟨m, hk, hm⟩ := key
    refine ⟨m, forall2_trans (fun a b c p q => ?_) hk (cleanup_alike' d e (oldSets g) _), hm⟩
    exact ⟨q.name.trans p.name, by rw [q.tmpl]; exact p.tmpl, fun h => q.spec.trans (p.miss h)⟩

/-- a run of a paused deployment that recreates scales at most one set, the one that wants machines if there is one -/
theorem paused_one {d : FDep} {e : Env} {l : List FSet} (he : e.Fine l) (hu : Unique l) (hnn : ∀ f ∈ l, 0 ≤ f.set.spec)
    (h1 : wanting l ≤ 1) : wanting (sync d e l) ≤ 1 := by
  obtain ⟨m, hrel, hm⟩ := paused_target (d := d) he hu hnn h1
  cases m with
  | none => rw [wanting_congr (fun a b hr => hr.miss (fun h => by cases h)) hrel]; exact h1
  | some s =>
    obtain ⟨hz, _, t, ht, hts⟩ := hm s rfl
    have : t.set.name ∈ (sync d e l).map (fun f => f.set.name) := by
      rw [map_forall2 (g := fun f => f.set.name) (fun a b hr => hr.name) hrel]; exact List.mem_map.2 ⟨t, ht, rfl⟩
    obtain ⟨t', ht', hn'⟩ := List.mem_map.1 this
    refine wanting_one (unique_forall2 (fun a b hr => hr.name) hrel hu) ht' fun f hf hne => ?_
    obtain ⟨a, ha, hr⟩ := mem_forall2 hrel f hf
    rw [hr.name, hn', hts] at hne
    rw [hr.miss fun h => hne (Option.some.inj h).symm]
    exact hz a ha hne

end MCM.Dispatch
