import Verif.Props.Dispatch
import Verif.Lemmas.RollingNames
import Verif.Lemmas.Synced
/-!
What one run of the deployment controller does to the sizes of the machine sets, as long as the deployment rolls: a measure of the remaining work that never
grows, and shrinks whenever a size changes.
-/
namespace MCM.Dispatch
open MCM MCM.Template MCM.Rolling

/-- a deployment that is acted upon: not paused, not being deleted, no rollback requested, a size the API accepts -/
structure Plain (d : FDep) : Prop where
  unpaused : d.paused = false
  alive : d.deleting = false
  noRollback : d.rollbackTo = none
  size : 0 ≤ d.spec.replicas ∧ d.spec.replicas < 2^63
  keys : (d.annotations.map Prod.fst).Nodup
  labels : IsMap d.template.labels

/-- the same, with a rolling update -/
structure Rolls (d : FDep) : Prop extends Plain d where
  strategy : d.spec.strategy = .rolling

/-- the set of the current template, the oldest one if there are several -/
def cur (d : FDep) (l : List FSet) : Option FSet := l.find? fun f => equalIgnoreHash f.tmpl d.template

/-- the current set needs an update of its annotations or of its in-place fields -/
def toWrite (d : FDep) (l : List FSet) (n : FSet) : Bool :=
  (Revision.synced d.annotations (diff d n) (Revision.newRevisionText ((others l n.set.name).map (·.annotations))) n.annotations).2

/-- machines to remove and to add -/
def workOf (d : FDep) (l : List FSet) (n : FSet) : Nat := (wanted (others l n.set.name) + (d.spec.replicas - n.set.spec).natAbs).toNat

/-- what remains to be done -/
def remaining (d : FDep) (l : List FSet) : Nat :=
  match cur d l with
  | none => 2 + (wanted l + d.spec.replicas).toNat
  | some n => (toWrite d l n).toNat + workOf d l n

/-- names are unique, no number is negative, and, if `P`, no scaling request is pending -/
structure SoundIf (P : Prop) (d : FDep) (l : List FSet) : Prop where
  unique : Unique l
  nonneg : ∀ f ∈ l, 0 ≤ f.set.spec ∧ 0 ≤ f.set.avail
  desired : P → ∀ f ∈ l, 0 < f.set.spec → ∀ v, f.set.desired.bind atoi = some v → v = d.spec.replicas

/-- names are unique, no number is negative, and no scaling request is pending -/
abbrev Sound : FDep → List FSet → Prop := SoundIf True

/-- names and sizes -/
def specs (l : List FSet) : List (String × Int) := l.map fun f => (f.set.name, f.set.spec)

/-! ### Relations between lists of sets -/

theorem find_forall2 {R : FSet → FSet → Prop} {p : FSet → Bool} (hp : ∀ a b, R a b → p b = p a) {l l' : List FSet} (h : List.Forall₂ R l l') :
    (l.find? p = none ∧ l'.find? p = none) ∨ ∃ a b, l.find? p = some a ∧ l'.find? p = some b ∧ R a b := by
  induction h with
  | nil => exact .inl ⟨rfl, rfl⟩
  | cons hr _ ih =>
    rename_i a b l1 l2 _
    have := hp a b hr
    cases ha : p a with
    | true => exact .inr ⟨a, b, by simp [ha], by simp [this, ha], hr⟩
    | false => simpa [ha, this] using ih

theorem filter_forall2 {R : FSet → FSet → Prop} {p : FSet → Bool} (hp : ∀ a b, R a b → p b = p a) {l l' : List FSet} (h : List.Forall₂ R l l') :
    List.Forall₂ R (l.filter p) (l'.filter p) := by
  induction h with
  | nil => exact .nil
  | cons hr _ ih =>
    rename_i a b l1 l2 _
    have := hp a b hr
    cases ha : p a with
    | true => simpa [ha, this] using List.Forall₂.cons hr ih
    | false => simpa [ha, this] using ih

theorem map_forall2 {R : FSet → FSet → Prop} {α : Type} {g : FSet → α} (hg : ∀ a b, R a b → g b = g a) {l l' : List FSet} (h : List.Forall₂ R l l') :
    l'.map g = l.map g := by
  induction h with
  | nil => rfl
  | cons hr _ ih => rw [List.map_cons, List.map_cons, hg _ _ hr, ih]

theorem mem_forall2 {R : FSet → FSet → Prop} {l l' : List FSet} (h : List.Forall₂ R l l') : ∀ b ∈ l', ∃ a ∈ l, R a b := by
  induction h with
  | nil => simp
  | cons hr _ ih =>
    rename_i a b _ _ _
    intro z hz
    rcases List.mem_cons.1 hz with rfl | hz
    · exact ⟨a, by simp, hr⟩
    · obtain ⟨y, hy, hr⟩ := ih z hz; exact ⟨y, by simp [hy], hr⟩

/-- the same in every respect that matters for the sizes -/
structure Alike (a b : FSet) : Prop where
  name : b.set.name = a.set.name
  spec : b.set.spec = a.set.spec
  avail : b.set.avail = a.set.avail
  desired : b.set.desired = a.set.desired
  maxR : b.set.maxR = a.set.maxR
  tmpl : b.tmpl = a.tmpl
  annotations : b.annotations = a.annotations
  minReady : b.minReady = a.minReady

theorem Alike.refl (a : FSet) : Alike a a := ⟨rfl, rfl, rfl, rfl, rfl, rfl, rfl, rfl⟩

/-- the same set, apart from its size -/
structure SameRev (a b : FSet) : Prop where
  name : b.set.name = a.set.name
  tmpl : b.tmpl = a.tmpl
  annotations : b.annotations = a.annotations
  minReady : b.minReady = a.minReady

theorem Alike.sameRev {a b : FSet} (h : Alike a b) : SameRev a b := ⟨h.name, h.tmpl, h.annotations, h.minReady⟩

theorem others_forall2 {R : FSet → FSet → Prop} (hn : ∀ a b, R a b → b.set.name = a.set.name) {l l' : List FSet} (h : List.Forall₂ R l l') (n : String) :
    List.Forall₂ R (others l n) (others l' n) := filter_forall2 (fun a b hr => by rw [hn a b hr]) h

theorem toWrite_congr {d : FDep} {l l' : List FSet} (h : List.Forall₂ SameRev l l') {n n' : FSet} (hn : SameRev n n') : toWrite d l' n' = toWrite d l n := by
  unfold toWrite diff
  rw [hn.name, hn.tmpl, hn.annotations, hn.minReady,
    map_forall2 (fun a b hr => hr.annotations) (others_forall2 (fun a b hr => hr.name) h n.set.name)]

theorem cur_forall2 {d : FDep} {R : FSet → FSet → Prop} (hR : ∀ a b, R a b → b.tmpl.labels = a.tmpl.labels ∧ b.tmpl.body = a.tmpl.body) {l l' : List FSet}
    (h : List.Forall₂ R l l') : (cur d l = none ∧ cur d l' = none) ∨ ∃ a b, cur d l = some a ∧ cur d l' = some b ∧ R a b :=
  find_forall2 (fun a b hr => by unfold equalIgnoreHash; rw [(hR a b hr).1, (hR a b hr).2]) h

theorem unique_forall2 {R : FSet → FSet → Prop} (hn : ∀ a b, R a b → b.set.name = a.set.name) {l l' : List FSet} (h : List.Forall₂ R l l')
    (hu : Unique l) : Unique l' := by
  unfold Unique at hu ⊢
  rwa [map_forall2 (g := fun f => f.set.name) hn h]

/-- the same, apart from what the machine set controller reports -/
structure Agree (a b : FSet) : Prop where
  name : b.set.name = a.set.name
  spec : b.set.spec = a.set.spec
  desired : b.set.desired = a.set.desired
  maxR : b.set.maxR = a.set.maxR
  tmpl : b.tmpl = a.tmpl
  annotations : b.annotations = a.annotations
  minReady : b.minReady = a.minReady

theorem Alike.agree {a b : FSet} (h : Alike a b) : Agree a b := ⟨h.name, h.spec, h.desired, h.maxR, h.tmpl, h.annotations, h.minReady⟩

theorem Agree.sameRev {a b : FSet} (h : Agree a b) : SameRev a b := ⟨h.name, h.tmpl, h.annotations, h.minReady⟩

theorem agree_same {d : FDep} {l l' : List FSet} (h : List.Forall₂ Agree l l') : remaining d l' = remaining d l ∧ specs l' = specs l := by
  refine ⟨?_, map_forall2 (fun a b hr => by rw [hr.name, hr.spec]) h⟩
  have h1 : List.Forall₂ SameRev l l' := h.imp fun _ _ hr => hr.sameRev
  unfold remaining
  rcases cur_forall2 (d := d) (fun a b hr => by rw [hr.tmpl]; exact ⟨rfl, rfl⟩) h with ⟨e1, e2⟩ | ⟨a, b, e1, e2, hr⟩
  · rw [e1, e2]
    unfold wanted
    rw [map_forall2 (g := fun f => f.set.spec) (fun a b hr => hr.spec) h]
  · rw [e1, e2]
    dsimp only
    rw [toWrite_congr h1 hr.sameRev]
    unfold workOf wanted
    rw [hr.name, hr.spec, map_forall2 (g := fun f => f.set.spec) (fun a b hr => hr.spec) (others_forall2 (fun a b hr => hr.name) h _)]

theorem agree_sound {P : Prop} {d : FDep} {l l' : List FSet} (h : List.Forall₂ Agree l l') (hs : SoundIf P d l) (ha : ∀ f ∈ l', 0 ≤ f.set.avail) : SoundIf P d l' := by
  refine ⟨unique_forall2 (fun a b hr => hr.name) h hs.unique, fun f hf => ?_, fun hP f hf hp v hv => ?_⟩
  · obtain ⟨a, ha', hr⟩ := mem_forall2 h f hf
    rw [hr.spec]; exact ⟨(hs.nonneg a ha').1, ha f hf⟩
  · obtain ⟨a, ha, hr⟩ := mem_forall2 h f hf
    rw [hr.spec] at hp; rw [hr.desired] at hv
    exact hs.desired hP a ha hp v hv

/-- nothing that matters has changed -/
theorem alike_same {P : Prop} {d : FDep} {l l' : List FSet} (h : List.Forall₂ Alike l l') (hs : SoundIf P d l) :
    SoundIf P d l' ∧ remaining d l' = remaining d l ∧ specs l' = specs l := by
  have h1 : List.Forall₂ Agree l l' := h.imp fun _ _ hr => hr.agree
  refine ⟨agree_sound h1 hs fun f hf => ?_, agree_same h1⟩
  obtain ⟨a, ha, hr⟩ := mem_forall2 h f hf
  rw [hr.avail]; exact (hs.nonneg a ha).2

/-! ### Writing the current set -/

theorem cur_mem {d : FDep} {l : List FSet} {n : FSet} (h : cur d l = some n) : n ∈ l := List.mem_of_find?_eq_some h

theorem cur_match {d : FDep} {l : List FSet} {n : FSet} (h : cur d l = some n) : equalIgnoreHash n.tmpl d.template = true := by
  have := List.find?_some h
  simpa using this

/-- the current set as it is written -/
def written (d : FDep) (l : List FSet) (n : FSet) : FSet :=
  { n with
    annotations := (Revision.synced d.annotations (diff d n) (Revision.newRevisionText ((others l n.set.name).map (·.annotations))) n.annotations).1
    tmpl := inPlace d.template n.tmpl
    minReady := d.minReady }

def writeCur (d : FDep) (l : List FSet) (n : FSet) : List FSet := l.map fun f => if f.set.name == n.set.name then written d l n else f

theorem others_map (g : FSet → FSet) (l : List FSet) (n : String) (hg : ∀ f ∈ l, (g f).set.name = f.set.name) :
    others (l.map g) n = (others l n).map g := by
  unfold others
  induction l with
  | nil => rfl
  | cons a l ih =>
    rw [List.map_cons, List.filter_cons, List.filter_cons, hg a (by simp), ih fun f hf => hg f (by simp [hf])]
    split <;> rfl

theorem mem_others {l : List FSet} {n : String} {f : FSet} : f ∈ others l n ↔ f ∈ l ∧ f.set.name ≠ n := by
  unfold others
  rw [List.mem_filter]
  simp

theorem others_written (d : FDep) (l : List FSet) (n : FSet) : others (writeCur d l n) n.set.name = others l n.set.name := by
  unfold writeCur
  rw [others_map]
  · conv => rhs; rw [← List.map_id (others l n.set.name)]
    refine List.map_congr_left fun f hf => ?_
    have := (mem_others.1 hf).2
    simp [this]
  · intro f _
    split
    · rename_i h; simpa [written] using (by simpa using h : f.set.name = n.set.name).symm
    · rfl

theorem written_forall2 {d : FDep} {l : List FSet} {n : FSet} (hu : Unique l) (hn : n ∈ l) :
    List.Forall₂ (fun a b => b.set = a.set ∧ (b.tmpl.labels = a.tmpl.labels ∧ b.tmpl.body = a.tmpl.body) ∧ (b = a ∨ a = n ∧ b = written d l n)) l
      (writeCur d l n) := by
  refine forall2_map _ _ fun a ha => ?_
  split
  · rename_i h
    have : a = n := unique_eq l hu a n ha hn (by simpa using h)
    subst this
    exact ⟨rfl, ⟨rfl, rfl⟩, .inr ⟨rfl, rfl⟩⟩
  · exact ⟨rfl, ⟨rfl, rfl⟩, .inl rfl⟩

theorem diff_written (d : FDep) (l : List FSet) (n : FSet) : diff d (written d l n) = {} := by
  unfold diff written inPlace
  simp

/-- once written, the current set needs no update -/
theorem write_rests {P : Prop} {d : FDep} (hd : Plain d) {l : List FSet} (hs : SoundIf P d l) {n : FSet} (hn : cur d l = some n) (hw : toWrite d l n = true) :
    cur d (writeCur d l n) = some (written d l n) ∧ toWrite d (writeCur d l n) (written d l n) = false := by
  have hf := written_forall2 (d := d) hs.unique (cur_mem hn)
  refine ⟨?_, ?_⟩
  · rcases cur_forall2 (d := d) (fun a b hr => hr.2.1) hf with ⟨e1, _⟩ | ⟨a, b, e1, e2, hr⟩
    · rw [hn] at e1; cases e1
    · rw [hn] at e1; cases e1
      rcases hr.2.2 with hb | ⟨_, hb⟩
      · exfalso
        have : b ∈ writeCur d l n := cur_mem e2
        unfold writeCur at this
        obtain ⟨x, hx, hxb⟩ := List.mem_map.1 this
        split at hxb
        · have e : written d l n = n := hxb.trans hb
          have hz := Revision.synced_rests d.annotations hd.keys (diff d n) (Revision.newRevisionText ((others l n.set.name).map (·.annotations))) n.annotations
          have e1 := diff_written d l n
          rw [e] at e1
          have e2 : (Revision.synced d.annotations (diff d n) (Revision.newRevisionText ((others l n.set.name).map (·.annotations))) n.annotations).1 = n.annotations := by
            have := congrArg FSet.annotations e
            exact this
          rw [e2] at hz
          unfold toWrite at hw
          rw [e1] at hw
          rw [hz] at hw; cases hw
        · rename_i hne
          rw [hxb, hb] at hne; simp at hne
      · rw [e2, hb]
  · have hname : (written d l n).set.name = n.set.name := rfl
    unfold toWrite
    rw [diff_written, hname, others_written]
    exact Revision.synced_rests d.annotations hd.keys _ _ _

theorem write_shrinks {P : Prop} {d : FDep} (hd : Rolls d) {l : List FSet} (hs : SoundIf P d l) {n : FSet} (hn : cur d l = some n) (hw : toWrite d l n = true) :
    SoundIf P d (writeCur d l n) ∧ remaining d (writeCur d l n) < remaining d l := by
  have hf := written_forall2 (d := d) hs.unique (cur_mem hn)
  refine ⟨⟨unique_forall2 (fun a b hr => by rw [hr.1]) hf hs.unique, fun f hf' => ?_, fun hP f hf' hp v hv => ?_⟩, ?_⟩
  · obtain ⟨a, ha, hr⟩ := mem_forall2 hf f hf'
    rw [hr.1]; exact hs.nonneg a ha
  · obtain ⟨a, ha, hr⟩ := mem_forall2 hf f hf'
    rw [hr.1] at hp hv
    exact hs.desired hP a ha hp v hv
  · obtain ⟨hcur, ht⟩ := write_rests hd.toPlain hs hn hw
    have hname : (written d l n).set.name = n.set.name := rfl
    unfold remaining
    rw [hn, hcur]
    dsimp only
    have hwk : workOf d (writeCur d l n) (written d l n) = workOf d l n := by
      unfold workOf
      rw [hname, others_written]; rfl
    rw [ht, hw, hwk]
    simp

/-! ### New sizes -/

/-- a list of sets after every one got a new size (with its annotation) or was left alone -/
structure Sized (d : FDep) (a b : FSet) : Prop extends SameRev a b where
  avail : b.set.avail = a.set.avail
  desired : (b.set.spec = a.set.spec ∧ b.set.desired = a.set.desired) ∨ b.set.desired = some (Scale.desiredText d.spec)
  limit : (b.set.spec = a.set.spec ∧ b.set.maxR = a.set.maxR) ∨ b.set.maxR = some (Scale.maxText d.spec)

theorem withSize_sized (d : FDep) (f : FSet) (n : Int) : Sized d f (withSize d.spec f n) ∧ (withSize d.spec f n).set.spec = n := by
  unfold withSize
  split
  · rename_i h; exact ⟨⟨⟨rfl, rfl, rfl, rfl⟩, rfl, .inl ⟨rfl, rfl⟩, .inl ⟨rfl, rfl⟩⟩, h⟩
  · exact ⟨⟨⟨rfl, rfl, rfl, rfl⟩, rfl, .inr rfl, .inr rfl⟩, rfl⟩

theorem Sized.refl (d : FDep) (f : FSet) : Sized d f f := ⟨⟨rfl, rfl, rfl, rfl⟩, rfl, .inl ⟨rfl, rfl⟩, .inl ⟨rfl, rfl⟩⟩

theorem sized_sound {P : Prop} {d : FDep} (hd : Rolls d) {l l' : List FSet} (h : List.Forall₂ (Sized d) l l') (hs : SoundIf P d l) (hn : ∀ f ∈ l', 0 ≤ f.set.spec) :
    SoundIf P d l' := by
  refine ⟨unique_forall2 (fun a b hr => hr.name) h hs.unique, fun f hf => ⟨hn f hf, ?_⟩, fun hP f hf hp v hv => ?_⟩
  · obtain ⟨a, ha, hr⟩ := mem_forall2 h f hf
    rw [hr.avail]; exact (hs.nonneg a ha).2
  · obtain ⟨a, ha, hr⟩ := mem_forall2 h f hf
    rcases hr.desired with ⟨e1, e2⟩ | e
    · rw [e1] at hp; rw [e2] at hv; exact hs.desired hP a ha hp v hv
    · rw [e, Option.bind_some, Scale.desiredText_reads d.spec hd.size.1 hd.size.2] at hv
      cases hv; rfl

/-- a size looked up by name -/
theorem sum_lookup (A B : List MS) (g : MS → Int) (hp : (B.map (·.name)).Perm (A.map (·.name))) (hu : (A.map (·.name)).Nodup)
    (hg : ∀ a ∈ A, ∀ b ∈ B, b.name = a.name → g a = b.spec) : (A.map g).sum = (B.map (·.spec)).sum := by
  have huB : (B.map (·.name)).Nodup := hp.symm.nodup hu
  let F : String → Int := fun n => ((B.find? fun b => b.name == n).map (·.spec)).getD 0
  have hA : A.map g = (A.map (·.name)).map F := by
    rw [List.map_map]
    refine List.map_congr_left fun a ha => ?_
    have : a.name ∈ B.map (·.name) := hp.symm.mem_iff.1 (List.mem_map.2 ⟨a, ha, rfl⟩)
    obtain ⟨b, hb, hbn⟩ := List.mem_map.1 this
    cases hf : B.find? fun b => b.name == a.name with
    | none => have := List.find?_eq_none.1 hf b hb; simp [hbn] at this
    | some b' =>
      have h1 := List.find?_some hf
      have h2 := hg a ha b' (List.mem_of_find?_eq_some hf) (by simpa using h1)
      show g a = ((B.find? fun b => b.name == a.name).map (·.spec)).getD 0
      rw [hf]; exact h2
  have hB : B.map (·.spec) = (B.map (·.name)).map F := by
    rw [List.map_map]
    refine List.map_congr_left fun b hb => ?_
    cases hf : B.find? fun x => x.name == b.name with
    | none => have := List.find?_eq_none.1 hf b hb; simp at this
    | some b' =>
      have h1 := List.find?_some hf
      have h2 : b'.name = b.name := by simpa using h1
      have h3 : b' = b := List.inj_on_of_nodup_map huB (List.mem_of_find?_eq_some hf) hb h2
      show b.spec = ((B.find? fun x => x.name == b.name).map (·.spec)).getD 0
      rw [hf, h3]; rfl
  rw [hA, hB]
  exact sum_perm (hp.symm.map F)

theorem sum_le_eq {α : Type} (l : List α) (f g : α → Int) (h : ∀ a ∈ l, g a ≤ f a) :
    (l.map g).sum ≤ (l.map f).sum ∧ ((l.map g).sum = (l.map f).sum → ∀ a ∈ l, g a = f a) := by
  induction l with
  | nil => simp
  | cons x l ih =>
    have h1 := h x (by simp)
    obtain ⟨i1, i2⟩ := ih fun a ha => h a (by simp [ha])
    simp only [List.map_cons, List.sum_cons]
    refine ⟨by omega, fun he a ha => ?_⟩
    rcases List.mem_cons.1 ha with rfl | ha
    · omega
    · exact i2 (by omega) a ha

/-- the sizes of one step of the rolling update -/
def rolled (d : FDep) (e : Rolling.Env) (l : List FSet) (n : FSet) : List FSet :=
  resizeMS d.spec l ((rolloutStep d.spec e ((others l n.set.name).map msOf) (msOf n)).1 ++ [(rolloutStep d.spec e ((others l n.set.name).map msOf) (msOf n)).2])

theorem resizeMS_sized (d : FDep) (l : List FSet) (r : List MS) : List.Forall₂ (Sized d) l (resizeMS d.spec l r) := by
  refine forall2_map _ _ fun a _ => ?_
  split
  · exact (withSize_sized d a _).1
  · exact Sized.refl d a

/-- how one set comes out -/
def resized (d : Dep) (r : List MS) (f : FSet) : FSet :=
  match r.find? (fun s => s.name == f.set.name) with
  | some s => withSize d f s.spec
  | none => f

theorem resizeMS_map (d : Dep) (l : List FSet) (r : List MS) : resizeMS d l r = l.map (resized d r) := rfl

theorem resized_name (d : Dep) (r : List MS) (f : FSet) : (resized d r f).set.name = f.set.name := by
  unfold resized withSize
  split
  · split <;> rfl
  · rfl

theorem resized_spec {d : FDep} {r : List MS} {f : FSet} {s : MS} (h : r.find? (fun s => s.name == f.set.name) = some s) :
    (resized d.spec r f).set.spec = s.spec := by
  unfold resized
  rw [h]
  exact (withSize_sized d f s.spec).2

theorem find_unique_name {r : List MS} (hu : (r.map (·.name)).Nodup) {s : MS} (hs : s ∈ r) {n : String} (hn : s.name = n) :
    r.find? (fun s => s.name == n) = some s := by
  cases hf : r.find? fun x => x.name == n with
  | none => have := List.find?_eq_none.1 hf s hs; simp [hn] at this
  | some b' =>
    have h1 := List.find?_some hf
    have h2 : b'.name = s.name := by rw [hn]; simpa using h1
    rw [List.inj_on_of_nodup_map hu (List.mem_of_find?_eq_some hf) hs h2]

/-- the current set stands where it stood -/
theorem cur_sized {d : FDep} {l : List FSet} {n : FSet} (hn : cur d l = some n) (g : FSet → FSet) (hg : ∀ f ∈ l, (g f).tmpl = f.tmpl) :
    cur d (l.map g) = some (g n) := by
  unfold cur at hn ⊢
  rw [List.find?_map]
  have : l.find? ((fun f => equalIgnoreHash f.tmpl d.template) ∘ g) = l.find? fun f => equalIgnoreHash f.tmpl d.template := by
    clear hn
    induction l with
    | nil => rfl
    | cons a l ih =>
      rw [List.find?_cons, List.find?_cons, ih fun f hf => hg f (by simp [hf])]
      simp only [Function.comp_apply, hg a (by simp)]
  rw [this, hn]; rfl

theorem resized_sized (d : FDep) (r : List MS) (f : FSet) : Sized d f (resized d.spec r f) := by
  unfold resized
  split
  · exact (withSize_sized d f _).1
  · exact Sized.refl d f

theorem others_names (l : List FSet) (hu : Unique l) (n : String) : ((((others l n).map msOf)).map (·.name)).Nodup := by
  have : (((others l n).map msOf)).map (·.name) = (others l n).map fun f => f.set.name := by rw [List.map_map]; rfl
  rw [this]
  unfold others
  exact List.Nodup.sublist (List.filter_sublist.map _) hu

/-- the summary of a step of the rolling update in terms of the sets: sizes as `rolloutStep` says -/
theorem rolled_sizes {P : Prop} {d : FDep} (hd : Rolls d) {e : Rolling.Env} (he : e.Sorts) {l : List FSet} (hs : SoundIf P d l) {n : FSet} (hn : cur d l = some n) :
    ∃ n', cur d (rolled d e l n) = some n' ∧ SameRev n n' ∧
      n'.set.spec = (rolloutStep d.spec e ((others l n.set.name).map msOf) (msOf n)).2.spec ∧
      wanted (others (rolled d e l n) n.set.name) = specSum (rolloutStep d.spec e ((others l n.set.name).map msOf) (msOf n)).1 ∧
      List.Forall₂ SameRev l (rolled d e l n) ∧ SoundIf P d (rolled d e l n) ∧
      (rolled d e l n = l ∨ workOf d (rolled d e l n) n' < workOf d l n ∨ specs (rolled d e l n) = specs l) := by
  have hnn : ∀ s ∈ (others l n.set.name).map msOf, 0 ≤ s.avail ∧ 0 ≤ s.spec := by
    intro s hs'
    obtain ⟨f, hf, rfl⟩ := List.mem_map.1 hs'
    have := hs.nonneg f (mem_others.1 hf).1
    exact ⟨this.2, this.1⟩
  have hnames := others_names l hs.unique n.set.name
  have hnm := cur_mem hn
  have hn0 := (hs.nonneg n hnm).1
  -- the names that come out
  have hout : ((rolloutStep d.spec e ((others l n.set.name).map msOf) (msOf n)).1.map (·.name)).Perm (((others l n.set.name).map msOf).map (·.name))
      ∧ (rolloutStep d.spec e ((others l n.set.name).map msOf) (msOf n)).2.name = n.set.name
      ∧ 0 ≤ (rolloutStep d.spec e ((others l n.set.name).map msOf) (msOf n)).2.spec
      ∧ (∀ s ∈ (rolloutStep d.spec e ((others l n.set.name).map msOf) (msOf n)).1, 0 ≤ s.spec)
      ∧ (rolloutStep d.spec e ((others l n.set.name).map msOf) (msOf n) = ((others l n.set.name).map msOf, msOf n)
        ∨ (((rolloutStep d.spec e ((others l n.set.name).map msOf) (msOf n)).1 = (others l n.set.name).map msOf)
          ∧ (d.spec.replicas - (rolloutStep d.spec e ((others l n.set.name).map msOf) (msOf n)).2.spec).natAbs < (d.spec.replicas - n.set.spec).natAbs)
        ∨ ((rolloutStep d.spec e ((others l n.set.name).map msOf) (msOf n)).2 = msOf n
          ∧ Downsized ((others l n.set.name).map msOf) (rolloutStep d.spec e ((others l n.set.name).map msOf) (msOf n)).1)) := by
    rcases rolloutStep_sets d.spec hd.strategy e he ((others l n.set.name).map msOf) (msOf n) hnn with h | ⟨m, h, h1, h2⟩ | ⟨old', h, h1⟩
    · rw [h]; exact ⟨.refl _, rfl, hn0, fun s hs => (hnn s hs).2, .inl rfl⟩
    · rw [h]
      refine ⟨.refl _, rfl, ?_, fun s hs => (hnn s hs).2, .inr (.inl ⟨rfl, h1⟩)⟩
      have := hd.size.1
      have : (msOf n).spec = n.set.spec := rfl
      simp only; omega
    · rw [h]
      refine ⟨h1.names, rfl, hn0, fun s hs => ?_, .inr (.inr ⟨rfl, h1⟩)⟩
      obtain ⟨y, _, hy⟩ := h1.shrunk s hs; exact hy.2.1
  unfold rolled
  revert hout
  generalize rolloutStep d.spec e ((others l n.set.name).map msOf) (msOf n) = r
  intro ⟨p1, p2, p3, p4, p5⟩
  -- lookups
  have hno : ∀ s ∈ r.1, s.name ≠ n.set.name := by
    intro s hs' he'
    have h1 : s.name ∈ (((others l n.set.name).map msOf)).map (·.name) := p1.mem_iff.1 (List.mem_map.2 ⟨s, hs', rfl⟩)
    obtain ⟨x, hx, hxn⟩ := List.mem_map.1 h1
    obtain ⟨f, hf, rfl⟩ := List.mem_map.1 hx
    exact (mem_others.1 hf).2 (by rw [← he', ← hxn]; rfl)
  have hnd : ((r.1 ++ [r.2]).map (·.name)).Nodup := by
    rw [List.map_append, List.nodup_append]
    refine ⟨p1.symm.nodup hnames, by simp, ?_⟩
    intro a ha b hb
    obtain ⟨s, hs', rfl⟩ := List.mem_map.1 ha
    simp only [List.map_cons, List.map_nil, List.mem_singleton] at hb
    rw [hb, p2]; exact hno s hs'
  have hnew : (resized d.spec (r.1 ++ [r.2]) n).set.spec = r.2.spec := resized_spec (find_unique_name hnd (by simp) p2)
  have hold : ∀ f ∈ others l n.set.name, ∃ s ∈ r.1, s.name = f.set.name ∧ (resized d.spec (r.1 ++ [r.2]) f).set.spec = s.spec := by
    intro f hf
    have h1 : f.set.name ∈ r.1.map (·.name) := p1.symm.mem_iff.1 (List.mem_map.2 ⟨msOf f, List.mem_map.2 ⟨f, hf, rfl⟩, rfl⟩)
    obtain ⟨s, hs', hsn⟩ := List.mem_map.1 h1
    exact ⟨s, hs', hsn, resized_spec (find_unique_name hnd (by simp [hs']) hsn)⟩
  rw [resizeMS_map]
  have hcur : cur d (l.map (resized d.spec (r.1 ++ [r.2]))) = some (resized d.spec (r.1 ++ [r.2]) n) :=
    cur_sized hn _ fun f _ => (resized_sized d _ f).tmpl
  have hoth : others (l.map (resized d.spec (r.1 ++ [r.2]))) n.set.name = (others l n.set.name).map (resized d.spec (r.1 ++ [r.2])) :=
    others_map _ _ _ fun f _ => resized_name _ _ _
  have hwant : wanted (others (l.map (resized d.spec (r.1 ++ [r.2]))) n.set.name) = specSum r.1 := by
    rw [hoth]
    unfold wanted specSum
    rw [List.map_map]
    have h1 : (others l n.set.name).map ((fun f => f.set.spec) ∘ resized d.spec (r.1 ++ [r.2]))
        = ((others l n.set.name).map msOf).map fun m => ((r.1.find? fun s => s.name == m.name).map (·.spec)).getD 0 := by
      rw [List.map_map]
      refine List.map_congr_left fun f hf => ?_
      obtain ⟨s, hs', hsn, hsp⟩ := hold f hf
      have hfn : r.1.find? (fun s => s.name == (msOf f).name) = some s := find_unique_name (p1.symm.nodup hnames) hs' hsn
      simp only [Function.comp_apply]
      rw [hsp, hfn]; rfl
    rw [h1]
    refine sum_lookup _ _ _ p1 hnames fun a ha b hb hab => ?_
    rw [find_unique_name (p1.symm.nodup hnames) hb hab]; rfl
  have hsound : SoundIf P d (l.map (resized d.spec (r.1 ++ [r.2]))) := by
    refine sized_sound hd (forall2_map _ _ fun a _ => resized_sized d _ a) hs fun f hf => ?_
    obtain ⟨a, ha, rfl⟩ := List.mem_map.1 hf
    by_cases hc : a.set.name = n.set.name
    · have := unique_eq l hs.unique a n ha hnm hc
      subst this
      rw [hnew]; exact p3
    · obtain ⟨s, hs', _, hsp⟩ := hold a (mem_others.2 ⟨ha, hc⟩)
      rw [hsp]; exact p4 s hs'
  refine ⟨_, hcur, (resized_sized d _ n).toSameRev, hnew, hwant, forall2_map _ _ fun a _ => (resized_sized d _ a).toSameRev, hsound, ?_⟩
  have hpair : ∀ f ∈ others l n.set.name, ∀ s ∈ r.1, s.name = f.set.name → ∀ (h : r.1 = (others l n.set.name).map msOf), s = msOf f := by
    intro f hf s hs' hsn h
    rw [h] at hs'
    exact List.inj_on_of_nodup_map hnames hs' (List.mem_map.2 ⟨f, hf, rfl⟩) hsn
  rcases p5 with h | ⟨h1, h2⟩ | ⟨h1, h2⟩
  · left
    conv => rhs; rw [← List.map_id l]
    refine List.map_congr_left fun f hf => ?_
    have hsame : (resized d.spec (r.1 ++ [r.2]) f).set.spec = f.set.spec ∧ ∃ s, (r.1 ++ [r.2]).find? (fun s => s.name == f.set.name) = some s ∧ s.spec = f.set.spec := by
      by_cases hc : f.set.name = n.set.name
      · have := unique_eq l hs.unique f n hf hnm hc
        subst this
        refine ⟨by rw [hnew, h]; rfl, r.2, find_unique_name hnd (by simp) p2, by rw [h]; rfl⟩
      · have hf' := mem_others.2 ⟨hf, hc⟩
        obtain ⟨s, hs', hsn, hsp⟩ := hold f hf'
        have := hpair f hf' s hs' hsn (by rw [h])
        refine ⟨by rw [hsp, this]; rfl, s, find_unique_name hnd (by simp [hs']) hsn, by rw [this]; rfl⟩
    obtain ⟨_, s, e1, e2⟩ := hsame
    unfold resized
    rw [e1]
    show withSize d.spec f s.spec = f
    unfold withSize
    rw [if_pos e2.symm]
  · right; left
    unfold workOf
    rw [resized_name, hwant, hnew, h1]
    have : specSum ((others l n.set.name).map msOf) = wanted (others l n.set.name) := by
      unfold specSum wanted
      rw [List.map_map]; rfl
    rw [this]
    have h0 : 0 ≤ wanted (others l n.set.name) := by
      rw [← this]; exact specSum_nonneg _ fun s hs => (hnn s hs).2
    omega
  · right
    have hle : ∀ f ∈ others l n.set.name, (resized d.spec (r.1 ++ [r.2]) f).set.spec ≤ f.set.spec := by
      intro f hf
      obtain ⟨s, hs', hsn, hsp⟩ := hold f hf
      obtain ⟨y, hy, q1, _, q3, _⟩ := h2.shrunk s hs'
      have : y = msOf f := List.inj_on_of_nodup_map hnames hy (List.mem_map.2 ⟨f, hf, rfl⟩) (by rw [← q1, hsn]; rfl)
      rw [hsp]; rw [this] at q3; exact q3
    obtain ⟨q1, q2⟩ := sum_le_eq (others l n.set.name) (fun f => f.set.spec) (fun f => (resized d.spec (r.1 ++ [r.2]) f).set.spec) hle
    have hw : wanted (others (l.map (resized d.spec (r.1 ++ [r.2]))) n.set.name) = ((others l n.set.name).map fun f => (resized d.spec (r.1 ++ [r.2]) f).set.spec).sum := by
      rw [hoth]; unfold wanted; rw [List.map_map]; rfl
    have hnew' : (resized d.spec (r.1 ++ [r.2]) n).set.spec = n.set.spec := by rw [hnew, h1]; rfl
    by_cases hc : ((others l n.set.name).map fun f => (resized d.spec (r.1 ++ [r.2]) f).set.spec).sum = ((others l n.set.name).map fun f => f.set.spec).sum
    · right
      have q3 := q2 hc
      unfold specs
      rw [List.map_map]
      refine List.map_congr_left fun f hf => ?_
      simp only [Function.comp_apply]
      rw [resized_name]
      by_cases hcn : f.set.name = n.set.name
      · have := unique_eq l hs.unique f n hf hnm hcn
        subst this
        rw [hnew']
      · rw [q3 f (mem_others.2 ⟨hf, hcn⟩)]
    · left
      unfold workOf
      rw [resized_name, hw, hnew']
      have h0 : 0 ≤ ((others l n.set.name).map fun f => (resized d.spec (r.1 ++ [r.2]) f).set.spec).sum := by
        refine Rolling.sum_nonneg _ fun x hx => ?_
        obtain ⟨f, hf, rfl⟩ := List.mem_map.1 hx
        exact (hsound.nonneg _ (List.mem_map.2 ⟨f, (mem_others.1 hf).1, rfl⟩)).1
      unfold wanted
      omega

/-! ### The parts of a run -/

theorem getNew_cur {d : FDep} {e : Env} {c : Bool} {l : List FSet} {n : FSet} (hn : cur d l = some n) : getNew d e c l = syncCurrent d e l n := by
  unfold cur at hn
  unfold getNew
  rw [hn]

theorem getNew_none {d : FDep} {e : Env} {c : Bool} {l : List FSet} (hn : cur d l = none) :
    getNew d e c l = if c then createCurrent d e l else { sets := l } := by
  unfold cur at hn
  unfold getNew
  rw [hn]

theorem sync_write {d : FDep} {e : Env} {l : List FSet} {n : FSet} (hw : toWrite d l n = true) :
    syncCurrent d e l n = if e.setOk then { sets := writeCur d l n, new := some n.set.name, wrote := true } else { sets := l, err := true } := by
  unfold toWrite at hw
  unfold syncCurrent
  dsimp only
  rw [if_pos hw]
  rfl

theorem sync_rest {d : FDep} {e : Env} {l : List FSet} {n : FSet} (hw : toWrite d l n = false) :
    syncCurrent d e l n = if e.depOk then { sets := l, new := some n.set.name } else { sets := l, err := true } := by
  unfold toWrite at hw
  unfold syncCurrent
  dsimp only
  rw [if_neg (by rw [hw]; simp)]

theorem curSet_eq {l : List FSet} (hu : Unique l) {n : FSet} (hn : n ∈ l) : curSet { sets := l, new := some n.set.name } = some n := by
  unfold curSet
  dsimp only
  cases hf : l.find? fun f => f.set.name == n.set.name with
  | none => have := List.find?_eq_none.1 hf n hn; simp at this
  | some b =>
    have h1 := List.find?_some hf
    rw [unique_eq l hu b n (List.mem_of_find?_eq_some hf) hn (by simpa using h1)]

theorem cleanup_alike (d : FDep) (e : Env) (old l : List FSet) : List.Forall₂ Alike l (rolloutCleanup d e old l) := by
  unfold rolloutCleanup
  split
  · unfold cleanup
    dsimp only
    refine forall2_map _ _ fun a _ => ?_
    split
    · exact ⟨rfl, rfl, rfl, rfl, rfl, rfl, rfl, rfl⟩
    · exact Alike.refl a
  · exact forall2_refl Alike.refl l

theorem rolling_cur {d : FDep} {e : Env} {l : List FSet} (hu : Unique l) {n : FSet} (hn : cur d l = some n) (hw : toWrite d l n = false) :
    List.Forall₂ Alike l (rolloutRolling d e l) ∧ e.depOk = false ∨
    List.Forall₂ Alike (rolled d e.rolling l n) (rolloutRolling d e l) ∧ e.depOk = true := by
  unfold rolloutRolling
  rw [getNew_cur hn, sync_rest hw]
  cases hdep : e.depOk with
  | false => exact .inl ⟨forall2_refl Alike.refl l, rfl⟩
  | true =>
    refine .inr ⟨?_, rfl⟩
    dsimp only
    rw [if_pos rfl, if_neg (by simp), curSet_eq hu (cur_mem hn)]
    exact cleanup_alike _ _ _ _

/-- the measure of the remaining work does not grow -/
def NoMore (d : FDep) (l l' : List FSet) : Prop :=
  Sound d l' ∧ (remaining d l' < remaining d l ∨ remaining d l' = remaining d l ∧ specs l' = specs l)

theorem NoMore.refl {d : FDep} {l : List FSet} (h : Sound d l) : NoMore d l l := ⟨h, .inr ⟨rfl, rfl⟩⟩

theorem NoMore.alike {d : FDep} {l l' l'' : List FSet} (h : NoMore d l l') (ha : List.Forall₂ Alike l' l'') : NoMore d l l'' := by
  obtain ⟨h1, h2, h3⟩ := alike_same ha h.1
  refine ⟨h1, ?_⟩
  rw [h2, h3]; exact h.2

theorem remaining_some {d : FDep} {l : List FSet} {n : FSet} (h : cur d l = some n) : remaining d l = (toWrite d l n).toNat + workOf d l n := by
  unfold remaining; rw [h]

theorem workOf_specs {d : FDep} {l l' : List FSet} {n n' : FSet} (hu : Unique l) (hn : n ∈ l) (hn' : n' ∈ l') (hname : n'.set.name = n.set.name)
    (h : specs l' = specs l) : workOf d l' n' = workOf d l n := by
  have h1 : ∀ (l : List FSet) (m : String), wanted (others l m) = (((specs l).filter fun p => !(p.1 == m)).map Prod.snd).sum := by
    intro l m
    unfold wanted others specs
    rw [List.filter_map, List.map_map]
    rfl
  have h2 : n'.set.spec = n.set.spec := by
    have hm : (n'.set.name, n'.set.spec) ∈ specs l := by rw [← h]; exact List.mem_map.2 ⟨n', hn', rfl⟩
    obtain ⟨x, hx, he⟩ := List.mem_map.1 hm
    have hxn : x = n := unique_eq l hu x n hx hn (by have := congrArg Prod.fst he; simpa [hname] using this)
    have := congrArg Prod.snd he
    rw [hxn] at this
    exact this.symm
  unfold workOf
  rw [h1, h1, h, hname, h2]

theorem rolled_noMore {d : FDep} (hd : Rolls d) {e : Rolling.Env} (he : e.Sorts) {l : List FSet} (hs : Sound d l) {n : FSet} (hn : cur d l = some n) :
    NoMore d l (rolled d e l n) := by
  obtain ⟨n', h1, h2, h3, h4, h5, h6, h7⟩ := rolled_sizes hd he hs hn
  refine ⟨h6, ?_⟩
  rw [remaining_some hn, remaining_some h1, toWrite_congr h5 h2]
  rcases h7 with h7 | h7 | h7
  · right
    refine ⟨?_, by rw [h7]⟩
    rw [workOf_specs hs.unique (cur_mem hn) (cur_mem h1) h2.name (by rw [h7])]
  · left; omega
  · right
    exact ⟨by rw [workOf_specs hs.unique (cur_mem hn) (cur_mem h1) h2.name h7], h7⟩

/-! ### Creating the current set -/

/-- what the environment provides for a new set: a name that is not in use and a hash, which is a decimal number (controller_utils.go:883-898) -/
structure Env.Fine (e : Env) (l : List FSet) : Prop where
  sorts : e.rolling.Sorts
  newest : e.scale.Sorts
  fresh : ∀ f ∈ l, f.set.name ≠ e.fresh
  unseen : ∀ f, e.created ≠ .existing f
  hash : e.hash ≠ ""
  cleans : ∀ l, (e.cleanupSort l).Perm l

theorem new_matches {d : FDep} (hd : Plain d) (e : Env) (l : List FSet) (size : Int) : equalIgnoreHash (newSet d e l size).tmpl d.template = true := by
  have hx : SameTemplate (newSet d e l size).tmpl d.template := ⟨fun k hk => lookup_set_ne _ _ _ _ hk, rfl⟩
  refine (C16_same_recognised _ _ ?_ hd.labels hx).1
  have h := hd.labels
  unfold newSet IsMap SMap.set
  unfold IsMap at h
  dsimp only
  rw [List.map_cons, List.nodup_cons]
  refine ⟨fun hm => ?_, List.Nodup.sublist (List.filter_sublist.map _) h⟩
  obtain ⟨x, hx, hxe⟩ := List.mem_map.1 hm
  have := (List.mem_filter.1 hx).2
  simp at hxe
  simp [hxe] at this

theorem created_cur {d : FDep} (hd : Plain d) {e : Env} {l : List FSet} (hn : cur d l = none) (size : Int) :
    cur d (l ++ [newSet d e l size]) = some (newSet d e l size) := by
  unfold cur at hn ⊢
  rw [List.find?_append, hn]
  simp [new_matches hd]

theorem others_append_fresh {l : List FSet} {x : FSet} (h : ∀ f ∈ l, f.set.name ≠ x.set.name) : others (l ++ [x]) x.set.name = l := by
  unfold others
  rw [List.filter_append, List.filter_eq_self.2]
  · simp
  · intro f hf; simpa using h f hf

theorem created_less {P : Prop} {d : FDep} (hd : Rolls d) {e : Env} {l : List FSet} (he : e.Fine l) (hs : SoundIf P d l) (hn : cur d l = none) {size : Int}
    (hz : newReplicas d.spec (l.map msOf ++ [{ spec := 0 }]) { spec := 0 } = some size) :
    SoundIf P d (l ++ [newSet d e l size]) ∧ remaining d (l ++ [newSet d e l size]) < remaining d l ∧ 0 ≤ size ∧ size ≤ d.spec.replicas := by
  have hb := newReplicas_mono d.spec hd.strategy _ _ size (by simpa using hd.size.1) hz
  simp only at hb
  have hname : (newSet d e l size).set.name = e.fresh := rfl
  have hfr : ∀ f ∈ l, f.set.name ≠ (newSet d e l size).set.name := he.fresh
  refine ⟨⟨?_, ?_, ?_⟩, ?_, hb⟩
  · unfold Unique
    rw [List.map_append, List.nodup_append]
    refine ⟨hs.unique, by simp, fun a ha b hb' => ?_⟩
    obtain ⟨f, hf, rfl⟩ := List.mem_map.1 ha
    simp only [List.map_cons, List.map_nil, List.mem_singleton] at hb'
    rw [hb']; exact hfr f hf
  · intro f hf
    rcases List.mem_append.1 hf with hf | hf
    · exact hs.nonneg f hf
    · rw [List.mem_singleton.1 hf]; exact ⟨hb.1, Int.le_refl _⟩
  · intro hP f hf hp v hv
    rcases List.mem_append.1 hf with hf | hf
    · exact hs.desired hP f hf hp v hv
    · rw [List.mem_singleton.1 hf] at hv
      change (some (Scale.desiredText d.spec)).bind atoi = some v at hv
      rw [Option.bind_some, Scale.desiredText_reads d.spec hd.size.1 hd.size.2] at hv
      cases hv; rfl
  · rw [remaining_some (created_cur hd.toPlain hn size)]
    unfold remaining
    rw [hn]
    dsimp only
    unfold workOf
    rw [others_append_fresh hfr]
    have h0 : 0 ≤ wanted l := by
      unfold wanted
      refine Rolling.sum_nonneg _ fun x hx => ?_
      obtain ⟨f, hf, rfl⟩ := List.mem_map.1 hx
      exact (hs.nonneg f hf).1
    have hsp : (newSet d e l size).set.spec = size := rfl
    rw [hsp]
    have := Bool.toNat_le (toWrite d (l ++ [newSet d e l size]) (newSet d e l size))
    omega

theorem curSet_fresh {l : List FSet} {x : FSet} (h : ∀ f ∈ l, f.set.name ≠ x.set.name) : curSet { sets := l ++ [x], new := some x.set.name } = some x := by
  unfold curSet
  dsimp only
  rw [List.find?_append, List.find?_eq_none.2]
  · simp
  · intro f hf; simpa using h f hf

theorem rolling_none {d : FDep} (hd : Rolls d) {e : Env} {l : List FSet} (he : e.Fine l) (hn : cur d l = none) :
    rolloutRolling d e l = l ∧ ((scaledValue d.spec.maxSurge d.spec.replicas true).isSome → e.created ≠ .done) ∨
    ∃ size, newReplicas d.spec (l.map msOf ++ [{ spec := 0 }]) { spec := 0 } = some size ∧
      (rolloutRolling d e l = l ++ [newSet d e l size] ∨
        List.Forall₂ Alike (rolled d e.rolling (l ++ [newSet d e l size]) (newSet d e l size)) (rolloutRolling d e l)) := by
  unfold rolloutRolling
  rw [getNew_none hn, if_pos rfl]
  unfold createCurrent
  cases hz : newReplicas d.spec (l.map msOf ++ [{ spec := 0 }]) { spec := 0 } with
  | none =>
    refine .inl ⟨rfl, fun h => ?_⟩
    exfalso
    unfold newReplicas at hz
    rw [hd.strategy] at hz
    dsimp only at hz
    cases hv : scaledValue d.spec.maxSurge d.spec.replicas true with
    | none => rw [hv] at h; cases h
    | some v =>
      rw [hv] at hz
      dsimp only at hz
      split at hz <;> cases hz
  | some size =>
    have hfr : ∀ f ∈ l, f.set.name ≠ (newSet d e l size).set.name := he.fresh
    dsimp only
    cases hc : e.created with
    | done =>
      refine .inr ⟨size, rfl, .inr ?_⟩
      dsimp only
      rw [if_neg (by simp)]
      have : curSet { sets := l ++ [newSet d e l size], new := some e.fresh } = some (newSet d e l size) := curSet_fresh hfr
      rw [this]
      exact cleanup_alike _ _ _ _
    | doneThenError => exact .inr ⟨size, rfl, .inl rfl⟩
    | existing f => exact absurd hc (he.unseen f)
    | failed => exact .inl ⟨rfl, fun _ h => by cases h⟩

/-! ### Scaling -/

theorem scaling_only_if_empty {d : FDep} {l : List FSet} (hs : Sound d l) {n : FSet} (hn : n ∈ l)
    (h : Scale.isScalingEvent d.spec ((others l n.set.name).map (·.set)) (some n.set) = true) : (∀ f ∈ l, f.set.spec = 0) ∧ 0 < d.spec.replicas := by
  have hmem : ∀ s, s ∈ (others l n.set.name).map (·.set) ++ [n.set] ↔ ∃ f ∈ l, f.set = s := by
    intro s
    rw [List.mem_append, List.mem_map]
    constructor
    · rintro (⟨f, hf, rfl⟩ | h)
      · exact ⟨f, (mem_others.1 hf).1, rfl⟩
      · exact ⟨n, hn, (List.mem_singleton.1 h).symm⟩
    · rintro ⟨f, hf, rfl⟩
      by_cases hc : f.set.name = n.set.name
      · right; rw [unique_eq l hs.unique f n hf hn hc]; simp
      · exact .inl ⟨f, mem_others.2 ⟨hf, hc⟩, rfl⟩
  unfold Scale.isScalingEvent at h
  dsimp only at h
  split at h
  · rename_i hc
    refine ⟨fun f hf => ?_, hc.2⟩
    have h0 : Scale.active ((others l n.set.name).map (·.set) ++ [n.set]) = [] := List.length_eq_zero_iff.1 hc.1
    unfold Scale.active at h0
    have := List.filter_eq_nil_iff.1 h0 f.set ((hmem _).2 ⟨f, hf, rfl⟩)
    have := (hs.nonneg f hf).1
    simp at *
    omega
  · rw [List.any_eq_true] at h
    obtain ⟨s, hs', hv⟩ := h
    unfold Scale.active at hs'
    obtain ⟨hm, hp⟩ := List.mem_filter.1 hs'
    obtain ⟨f, hf, rfl⟩ := (hmem _).1 hm
    exfalso
    cases hb : f.set.desired.bind atoi with
    | none => rw [hb] at hv; cases hv
    | some v =>
      rw [hb] at hv
      have := hs.desired trivial f hf (by simpa using hp) v hb
      simp [this] at hv

theorem sync_noMore {d : FDep} (hd : Rolls d) {e : Env} {l : List FSet} (he : e.Fine l) (hs : Sound d l) {n : FSet} (hn : cur d l = some n)
    (hw : toWrite d l n = false) (hz : ∀ f ∈ l, f.set.spec = 0) (hr : 0 < d.spec.replicas) :
    NoMore d l (sync d e l) ∧ (e.depOk = true → (∀ s, e.scale.ok s = true) → remaining d (sync d e l) < remaining d l)
      ∧ ∀ f ∈ sync d e l, f.set.spec ≤ d.spec.replicas ∧ (f ∈ l ∨ f.set.name = n.set.name) := by
  have hle : ∀ f ∈ l, f.set.spec ≤ d.spec.replicas ∧ (f ∈ l ∨ f.set.name = n.set.name) := fun f hf => ⟨by rw [hz f hf]; omega, .inl hf⟩
  unfold sync
  rw [getNew_cur hn, sync_rest hw]
  cases hdep : e.depOk with
  | false => exact ⟨NoMore.refl hs, by simp, hle⟩
  | true =>
    dsimp only
    rw [if_pos rfl, if_neg (by simp), curSet_eq hs.unique (cur_mem hn)]
    have hold : oldSets { sets := l, new := some n.set.name } = others l n.set.name := rfl
    rw [hold]
    have hfind : Scale.findActiveOrLatest e.scale ((others l n.set.name).map (·.set)) (some n.set) = some n.set := by
      unfold Scale.findActiveOrLatest
      have : Scale.active (e.scale.srtNewest ((others l n.set.name).map (·.set)) ++ (some n.set).toList) = [] := by
        unfold Scale.active
        rw [List.filter_eq_nil_iff]
        intro s hs'
        rcases List.mem_append.1 hs' with hs' | hs'
        · have := (he.newest.1 _).mem_iff.1 hs'
          obtain ⟨f, hf, rfl⟩ := List.mem_map.1 this
          rw [hz f (mem_others.1 hf).1]; simp
        · simp only [Option.toList_some, List.mem_singleton] at hs'
          rw [hs', hz n (cur_mem hn)]; simp
      rw [this]
    have hn0 := hz n (cur_mem hn)
    have hscale : Scale.scale d.spec e.scale ((others l n.set.name).map (·.set)) ((some n).map (·.set))
        = (Scale.replaceSet ((others l n.set.name).map (·.set) ++ [n.set]) (Scale.scaleSet d.spec (e.scale.ok n.set) n.set d.spec.replicas).1,
          (Scale.scaleSet d.spec (e.scale.ok n.set) n.set d.spec.replicas).2) := by
      unfold Scale.scale
      dsimp only [Option.map_some]
      rw [hfind]
      dsimp only
      rw [if_neg (by omega)]
      unfold Scale.scaleSetEv
      rw [if_neg (by omega)]
      rfl
    rw [hscale]
    dsimp only
    have hsc : Scale.scaleSet d.spec (e.scale.ok n.set) n.set d.spec.replicas = if e.scale.ok n.set then
        ({ n.set with spec := d.spec.replicas, desired := some (Scale.desiredText d.spec), maxR := some (Scale.maxText d.spec) }, false) else (n.set, true) := by
      unfold Scale.scaleSet
      rw [if_pos (.inl (by omega))]
    have hpc : ∀ old l', pausedCleanup d e old l' = l' := by
      intro old l'
      unfold pausedCleanup
      rw [hd.unpaused]; rfl
    rw [hsc, hpc]
    -- which entry is found
    have hfindr : ∀ (x : Scale.MSet), x.name = n.set.name → ∀ f ∈ l,
        (Scale.replaceSet ((others l n.set.name).map (·.set) ++ [n.set]) x).find? (fun s => s.name == f.set.name)
          = some (if f.set.name = n.set.name then x else f.set) := by
      intro x hx f hf
      cases hq : (Scale.replaceSet ((others l n.set.name).map (·.set) ++ [n.set]) x).find? (fun s => s.name == f.set.name) with
      | none =>
        exfalso
        have hall := List.find?_eq_none.1 hq
        have hmem : f.set ∈ (others l n.set.name).map (·.set) ++ [n.set] := by
          by_cases hc : f.set.name = n.set.name
          · rw [unique_eq l hs.unique f n hf (cur_mem hn) hc]; simp
          · exact List.mem_append_left _ (List.mem_map.2 ⟨f, mem_others.2 ⟨hf, hc⟩, rfl⟩)
        have := hall (if f.set.name = x.name then x else f.set) (List.mem_map.2 ⟨f.set, hmem, rfl⟩)
        split at this
        · rename_i h; simp [h] at this
        · simp at this
      | some y =>
        have hy := List.find?_some hq
        have hy1 : y.name = f.set.name := by simpa using hy
        have hy2 := List.mem_of_find?_eq_some hq
        unfold Scale.replaceSet at hy2
        obtain ⟨z, hz1, hz2⟩ := List.mem_map.1 hy2
        by_cases hzx : z.name = x.name
        · rw [if_pos hzx] at hz2
          rw [if_pos (by rw [← hy1, ← hz2, hx]), hz2]
        · rw [if_neg hzx] at hz2
          subst hz2
          rw [if_neg (by rw [← hy1, ← hx]; exact hzx)]
          rcases List.mem_append.1 hz1 with h | h
          · obtain ⟨g, hg, rfl⟩ := List.mem_map.1 h
            rw [unique_eq l hs.unique g f (mem_others.1 hg).1 hf hy1]
          · rw [List.mem_singleton.1 h, hx] at hzx
            exact absurd rfl hzx
    have hres : ∀ (x : Scale.MSet), x.name = n.set.name →
        resize l (Scale.replaceSet ((others l n.set.name).map (·.set) ++ [n.set]) x) = l.map fun f => if f.set.name = n.set.name then { f with set := x } else f := by
      intro x hx
      unfold resize
      refine List.map_congr_left fun f hf => ?_
      rw [hfindr x hx f hf]
      by_cases hc : f.set.name = n.set.name
      · simp only [if_pos hc]
      · simp only [if_neg hc]
    cases hok : e.scale.ok n.set with
    | false =>
      have hid : resize l (Scale.replaceSet ((others l n.set.name).map (·.set) ++ [n.set]) n.set) = l := by
        rw [hres n.set rfl]
        conv => rhs; rw [← List.map_id l]
        refine List.map_congr_left fun f hf => ?_
        split
        · rename_i hc; rw [unique_eq l hs.unique f n hf (cur_mem hn) hc]; rfl
        · rfl
      simp only [Bool.false_eq_true, if_false, if_true]
      rw [hid]
      exact ⟨NoMore.refl hs, fun _ h => (by rw [h] at hok; cases hok), hle⟩
    | true =>
      simp only [Bool.false_eq_true, if_false, if_true]
      rw [hres { n.set with spec := d.spec.replicas, desired := some (Scale.desiredText d.spec), maxR := some (Scale.maxText d.spec) } rfl]
      have hsized : List.Forall₂ (Sized d) l (l.map fun f => if f.set.name = n.set.name then
          { f with set := { n.set with spec := d.spec.replicas, desired := some (Scale.desiredText d.spec), maxR := some (Scale.maxText d.spec) } } else f) := by
        refine forall2_map _ _ fun a ha => ?_
        split
        · rename_i hc
          have := unique_eq l hs.unique a n ha (cur_mem hn) hc
          subst this
          exact ⟨⟨rfl, rfl, rfl, rfl⟩, rfl, .inr rfl, .inr rfl⟩
        · exact Sized.refl d a
      have hcur := cur_sized hn (fun f => if f.set.name = n.set.name then
          { f with set := { n.set with spec := d.spec.replicas, desired := some (Scale.desiredText d.spec), maxR := some (Scale.maxText d.spec) } } else f)
          (fun f _ => by dsimp only; split <;> rfl)
      have hbound : ∀ f ∈ (l.map fun f => if f.set.name = n.set.name then
          { f with set := { n.set with spec := d.spec.replicas, desired := some (Scale.desiredText d.spec), maxR := some (Scale.maxText d.spec) } } else f),
          0 ≤ f.set.spec ∧ f.set.spec ≤ d.spec.replicas := by
        intro f hf
        obtain ⟨a, ha, rfl⟩ := List.mem_map.1 hf
        split
        · simp only; omega
        · rw [hz a ha]; omega
      have hsound := sized_sound hd hsized hs fun f hf => (hbound f hf).1
      have hrem : remaining d (l.map fun f => if f.set.name = n.set.name then
          { f with set := { n.set with spec := d.spec.replicas, desired := some (Scale.desiredText d.spec), maxR := some (Scale.maxText d.spec) } } else f) < remaining d l := by
        rw [remaining_some hn, remaining_some hcur, toWrite_congr (n := n) (hsized.imp fun _ _ h => h.toSameRev) (by simp only [if_true]; exact ⟨rfl, rfl, rfl, rfl⟩), hw]
        simp only [if_true]
        unfold workOf
        simp only
        rw [others_map _ _ _ (fun f _ => by
          split
          · rename_i hc; exact hc.symm
          · rfl)]
        have h1 : (others l n.set.name).map (fun f => if f.set.name = n.set.name then
          { f with set := { n.set with spec := d.spec.replicas, desired := some (Scale.desiredText d.spec), maxR := some (Scale.maxText d.spec) } } else f)
            = others l n.set.name := by
          conv => rhs; rw [← List.map_id (others l n.set.name)]
          refine List.map_congr_left fun f hf => ?_
          rw [if_neg (mem_others.1 hf).2]; rfl
        rw [h1]
        have h2 : 0 ≤ wanted (others l n.set.name) := by
          unfold wanted
          refine Rolling.sum_nonneg _ fun x hx => ?_
          obtain ⟨f, hf, rfl⟩ := List.mem_map.1 hx
          exact (hs.nonneg f (mem_others.1 hf).1).1
        omega
      exact ⟨⟨hsound, .inl hrem⟩, fun _ _ => hrem, fun f hf => ⟨(hbound f hf).2, by
        obtain ⟨a, ha, rfl⟩ := List.mem_map.1 hf
        split
        · exact .inr rfl
        · exact .inl ha⟩⟩

/-! ### Whole runs -/

theorem reconcile_rolls {d : FDep} (hd : Plain d) (e : Env) (l : List FSet) :
    (reconcile d e l).sets = l ∨ (reconcile d e l).sets = scaleOrRoll d e l := by
  unfold reconcile
  split
  · exact .inl rfl
  · split
    · exact .inl rfl
    · split
      · exact .inl rfl
      · rw [hd.alive]
        split
        · rename_i h; cases h
        · split
          · exact .inl rfl
          · rw [hd.unpaused, hd.noRollback]
            exact .inr rfl

theorem reconcile_smooth {d : FDep} (hd : Plain d) (hsel : d.selectsAll = false) {e : Env} (he : e.Smooth) (l : List FSet) :
    (reconcile d e l).sets = scaleOrRoll d e l := by
  unfold reconcile
  rw [he.valid, he.list, he.pre, hsel, hd.alive, hd.unpaused, hd.noRollback]
  rfl

/-- the parts of a run that scales or rolls -/
theorem scaleOrRoll_cases {d : FDep} (hd : Rolls d) {e : Env} {l : List FSet} (hs : Sound d l) :
    (∃ n, cur d l = some n ∧ toWrite d l n = true ∧ scaleOrRoll d e l = if e.setOk then writeCur d l n else l) ∨
    (∃ n, cur d l = some n ∧ toWrite d l n = false ∧ ((e.depOk = false ∧ scaleOrRoll d e l = l) ∨
      ((∀ f ∈ l, f.set.spec = 0) ∧ 0 < d.spec.replicas ∧ scaleOrRoll d e l = sync d e l) ∨ scaleOrRoll d e l = rolloutRolling d e l)) ∨
    (cur d l = none ∧ scaleOrRoll d e l = rolloutRolling d e l) := by
  unfold scaleOrRoll
  cases hn : cur d l with
  | none =>
    refine .inr (.inr ⟨rfl, ?_⟩)
    rw [getNew_none hn]
    dsimp only
    simp only [Bool.false_eq_true, if_false, Bool.or_self]
    have : curSet { sets := l } = none := rfl
    rw [this, hd.strategy]
    rfl
  | some n =>
    rw [getNew_cur hn]
    cases hw : toWrite d l n with
    | true =>
      refine .inl ⟨n, rfl, hw, ?_⟩
      rw [sync_write hw]
      cases e.setOk <;> rfl
    | false =>
      refine .inr (.inl ⟨n, rfl, hw, ?_⟩)
      rw [sync_rest hw]
      cases hdep : e.depOk with
      | false => exact .inl ⟨rfl, rfl⟩
      | true =>
        right
        dsimp only
        rw [if_pos rfl]
        rw [if_neg (by simp), curSet_eq hs.unique (cur_mem hn)]
        have hold : oldSets { sets := l, new := some n.set.name } = others l n.set.name := rfl
        rw [hold, Option.map_some]
        split
        · rename_i h
          have := scaling_only_if_empty hs (cur_mem hn) h
          exact .inl ⟨this.1, this.2, rfl⟩
        · right; rw [hd.strategy]

/-- no set becomes larger than it was, or than the deployment -/
def Below (b : Int) (l : List FSet) : Prop := ∀ f ∈ l, f.set.spec ≤ b

theorem below_specs {b : Int} {l l' : List FSet} (h : specs l' = specs l) (hb : Below b l) : Below b l' := by
  intro f hf
  have hm : (f.set.name, f.set.spec) ∈ specs l := by rw [← h]; exact List.mem_map.2 ⟨f, hf, rfl⟩
  obtain ⟨x, hx, he⟩ := List.mem_map.1 hm
  have := congrArg Prod.snd he
  simp only at this
  rw [← this]; exact hb x hx

theorem rolled_below {d : FDep} (hd : Rolls d) {e : Rolling.Env} (he : e.Sorts) {l : List FSet} (hs : Sound d l) {n : FSet} (hn : n ∈ l) {b : Int}
    (hb : Below b l) (hr : d.spec.replicas ≤ b) : Below b (rolled d e l n) := by
  have hnn : ∀ s ∈ (others l n.set.name).map msOf, 0 ≤ s.avail ∧ 0 ≤ s.spec := by
    intro s hs'
    obtain ⟨f, hf, rfl⟩ := List.mem_map.1 hs'
    have := hs.nonneg f (mem_others.1 hf).1
    exact ⟨this.2, this.1⟩
  have hbm : ∀ s ∈ (others l n.set.name).map msOf, s.spec ≤ b := by
    intro s hs'
    obtain ⟨f, hf, rfl⟩ := List.mem_map.1 hs'
    exact hb f (mem_others.1 hf).1
  have hbn : (msOf n).spec ≤ b := hb n hn
  have key : ∀ s ∈ (rolloutStep d.spec e ((others l n.set.name).map msOf) (msOf n)).1 ++ [(rolloutStep d.spec e ((others l n.set.name).map msOf) (msOf n)).2],
      s.spec ≤ b := by
    intro s hs'
    rcases rolloutStep_sets d.spec hd.strategy e he ((others l n.set.name).map msOf) (msOf n) hnn with h | ⟨m, h, h1, h2⟩ | ⟨old', h, h1⟩
    · rw [h] at hs'
      rcases List.mem_append.1 hs' with hs' | hs'
      · exact hbm s hs'
      · rw [List.mem_singleton.1 hs']; exact hbn
    · rw [h] at hs'
      rcases List.mem_append.1 hs' with hs' | hs'
      · exact hbm s hs'
      · rw [List.mem_singleton.1 hs']; simp only; omega
    · rw [h] at hs'
      rcases List.mem_append.1 hs' with hs' | hs'
      · obtain ⟨y, hy, hy'⟩ := h1.shrunk s hs'
        have := hbm y hy
        have := hy'.2.2.1
        omega
      · rw [List.mem_singleton.1 hs']; exact hbn
  intro f hf
  unfold rolled at hf
  rw [resizeMS_map] at hf
  obtain ⟨a, ha, rfl⟩ := List.mem_map.1 hf
  unfold resized
  split
  · rename_i s hfs
    rw [(withSize_sized d a s.spec).2]
    exact key s (List.mem_of_find?_eq_some hfs)
  · exact hb a ha

theorem alike_below {l l' : List FSet} {b : Int} (h : List.Forall₂ Alike l l') (hb : Below b l) : Below b l' := by
  intro f hf
  obtain ⟨a, ha, hr⟩ := mem_forall2 h f hf
  rw [hr.spec]; exact hb a ha

theorem scaleOrRoll_noMore {d : FDep} (hd : Rolls d) {e : Env} {l : List FSet} (he : e.Fine l) (hs : Sound d l) :
    NoMore d l (scaleOrRoll d e l) ∧ ∀ b, Below b l → d.spec.replicas ≤ b → Below b (scaleOrRoll d e l) := by
  rcases scaleOrRoll_cases hd (e := e) hs with ⟨n, hn, hw, h⟩ | ⟨n, hn, hw, ⟨_, h⟩ | ⟨hz, hr, h⟩ | h⟩ | ⟨hn, h⟩
  · rw [h]
    split
    · have := write_shrinks hd hs hn hw
      refine ⟨⟨this.1, .inl this.2⟩, fun b hb _ f hf => ?_⟩
      obtain ⟨a, ha, hra⟩ := mem_forall2 (written_forall2 (d := d) hs.unique (cur_mem hn)) f hf
      rw [hra.1]; exact hb a ha
    · exact ⟨NoMore.refl hs, fun b hb _ => hb⟩
  · rw [h]; exact ⟨NoMore.refl hs, fun b hb _ => hb⟩
  · rw [h]
    have := sync_noMore hd he hs hn hw hz hr
    exact ⟨this.1, fun b _ hb f hf => Int.le_trans (this.2.2 f hf).1 hb⟩
  · rw [h]
    rcases rolling_cur (e := e) hs.unique hn hw with ⟨h1, _⟩ | ⟨h1, _⟩
    · exact ⟨(NoMore.refl hs).alike h1, fun b hb _ => alike_below h1 hb⟩
    · exact ⟨(rolled_noMore hd he.sorts hs hn).alike h1, fun b hb hr => alike_below h1 (rolled_below hd he.sorts hs (cur_mem hn) hb hr)⟩
  · rw [h]
    rcases rolling_none hd he hn with ⟨h1, _⟩ | ⟨size, hz, h1⟩
    · rw [h1]; exact ⟨NoMore.refl hs, fun b hb _ => hb⟩
    · obtain ⟨c1, c2, c3, c4⟩ := created_less hd he hs hn hz
      have hbl : ∀ b, Below b l → d.spec.replicas ≤ b → Below b (l ++ [newSet d e l size]) := by
        intro b hb hr f hf
        rcases List.mem_append.1 hf with hf | hf
        · exact hb f hf
        · rw [List.mem_singleton.1 hf]; exact Int.le_trans c4 hr
      rcases h1 with h1 | h1
      · rw [h1]; exact ⟨⟨c1, .inl c2⟩, hbl⟩
      · have hm := rolled_noMore hd he.sorts c1 (created_cur hd.toPlain hn size)
        refine ⟨NoMore.alike ⟨hm.1, .inl ?_⟩ h1, fun b hb hr => alike_below h1 (rolled_below hd he.sorts c1 (by simp) (hbl b hb hr) hr)⟩
        rcases hm.2 with h2 | ⟨h2, _⟩ <;> omega

/-- no run of the deployment controller adds work, whatever it sees and whichever of its calls fail -/
theorem reconcile_noMore {d : FDep} (hd : Rolls d) {e : Env} {l : List FSet} (he : e.Fine l) (hs : Sound d l) :
    NoMore d l (reconcile d e l).sets ∧ ∀ b, Below b l → d.spec.replicas ≤ b → Below b (reconcile d e l).sets := by
  rcases reconcile_rolls hd.toPlain e l with h | h
  · rw [h]; exact ⟨NoMore.refl hs, fun b hb _ => hb⟩
  · rw [h]; exact scaleOrRoll_noMore hd he hs

/-- a run that finds every set caught up and whose calls succeed gets on, as long as anything is left to do -/
theorem reconcile_less {d : FDep} (hd : Rolls d) (hsel : d.selectsAll = false) {surge unav : Int} (hsu : scaledValue d.spec.maxSurge d.spec.replicas true = some surge)
    (hun : scaledValue d.spec.maxUnavailable d.spec.replicas false = some unav) (h0 : 0 ≤ surge) (h1 : 0 ≤ unav) {e : Env} {l : List FSet} (he : e.Fine l)
    (hsm : e.Smooth) (hrol : AllOk e.rolling) (hcr : e.created = .done) (hs : Sound d l) (hset : ∀ f ∈ l, f.status = f.set.spec ∧ f.set.avail = f.set.spec)
    (hpos : 0 < remaining d l) : remaining d (reconcile d e l).sets < remaining d l := by
  rw [reconcile_smooth hd.toPlain hsel hsm]
  rcases scaleOrRoll_cases hd (e := e) hs with ⟨n, hn, hw, h⟩ | ⟨n, hn, hw, ⟨h, _⟩ | ⟨hz, hr, h⟩ | h⟩ | ⟨hn, h⟩
  · rw [h, hsm.set]; exact (write_shrinks hd hs hn hw).2
  · rw [hsm.dep] at h; cases h
  · rw [h]; exact (sync_noMore hd he hs hn hw hz hr).2.1 hsm.dep hsm.calls
  · rw [h]
    rcases rolling_cur (e := e) hs.unique hn hw with ⟨_, h2⟩ | ⟨h2, _⟩
    · rw [hsm.dep] at h2; cases h2
    · obtain ⟨n', k1, k2, k3, k4, k5, k6, _⟩ := rolled_sizes hd he.sorts hs hn
      rw [(alike_same h2 k6).2.1, remaining_some k1, toWrite_congr k5 k2, hw, remaining_some hn, hw]
      rw [remaining_some hn, hw] at hpos
      have hstep : StepRel d.spec Settled AllOk ⟨(others l n.set.name).map fun f => f.set.spec, n.set.spec⟩
          (sizesOf (rolloutStep d.spec e.rolling ((others l n.set.name).map msOf) (msOf n)).1 (rolloutStep d.spec e.rolling ((others l n.set.name).map msOf) (msOf n)).2) := by
        refine ⟨e.rolling, (others l n.set.name).map msOf, msOf n, he.sorts, hrol, ?_, ?_, rfl, rfl⟩
        · intro s hs'
          have : ∃ f ∈ l, s = msOf f := by
            rcases List.mem_cons.1 hs' with h | h
            · exact ⟨n, cur_mem hn, h⟩
            · obtain ⟨f, hf, rfl⟩ := List.mem_map.1 h; exact ⟨f, (mem_others.1 hf).1, rfl⟩
          obtain ⟨f, hf, rfl⟩ := this
          exact ⟨(hs.nonneg f hf).1, (hset f hf).1, (hset f hf).2⟩
        · rw [List.map_map]; exact List.Perm.refl _
      have hwork : ∀ a : Nat, workOf d l n = a → Rolling.work d.spec ⟨(others l n.set.name).map fun f => f.set.spec, n.set.spec⟩ = a := fun a h => h
      have := step_settled d.spec surge unav hd.strategy hd.size.1 hsu hun h0 h1 _ _ hstep (by rw [hwork _ rfl]; simpa using hpos)
      rw [hwork _ rfl] at this
      have h3 : workOf d (rolled d e.rolling l n) n' = Rolling.work d.spec (sizesOf (rolloutStep d.spec e.rolling ((others l n.set.name).map msOf) (msOf n)).1
          (rolloutStep d.spec e.rolling ((others l n.set.name).map msOf) (msOf n)).2) := by
        unfold workOf Rolling.work sizesOf
        dsimp only
        rw [k2.name, k4, k3]; rfl
      omega
  · rw [h]
    rcases rolling_none hd he hn with ⟨_, h2⟩ | ⟨size, hz, h2⟩
    · exact absurd hcr (h2 (by rw [hsu]; rfl))
    · obtain ⟨c1, c2, _, _⟩ := created_less hd he hs hn hz
      rcases h2 with h2 | h2
      · rw [h2]; exact c2
      · have hm := rolled_noMore hd he.sorts c1 (created_cur hd.toPlain hn size)
        rw [(alike_same h2 hm.1).2.1]
        rcases hm.2 with h3 | ⟨h3, _⟩ <;> omega

/-- nothing is left to do: the current set has the desired size, every other set is empty -/
theorem remaining_zero {d : FDep} {l : List FSet} (hs : Sound d l) (h : remaining d l = 0) :
    ∃ n, cur d l = some n ∧ n.set.spec = d.spec.replicas ∧ ∀ f ∈ l, f.set.name ≠ n.set.name → f.set.spec = 0 := by
  unfold remaining at h
  cases hn : cur d l with
  | none => rw [hn] at h; dsimp only at h; omega
  | some n =>
    rw [hn] at h
    dsimp only at h
    have hw : workOf d l n = 0 := by omega
    unfold workOf at hw
    have hnn : ∀ x ∈ (others l n.set.name).map fun f => f.set.spec, 0 ≤ x := by
      intro x hx
      obtain ⟨f, hf, rfl⟩ := List.mem_map.1 hx
      exact (hs.nonneg f (mem_others.1 hf).1).1
    have h0 := Rolling.sum_nonneg _ hnn
    unfold wanted at hw
    refine ⟨n, rfl, by omega, fun f hf hne => ?_⟩
    exact sum_zero _ hnn (by omega) _ (List.mem_map.2 ⟨f, mem_others.2 ⟨hf, hne⟩, rfl⟩)

end MCM.Dispatch
