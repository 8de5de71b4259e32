import Verif.Lemmas.Marks
import Verif.Props.Rollback
import Verif.Props.Rest
/-!
# C134 – undoing an undo
-/
namespace MCM.Undo
open MCM MCM.Template MCM.Revision MCM.Dispatch

/-! ## Independent specification -/

/-- `b` is the set of the deployment's template, `a` the one with the greatest revision besides it. No two sets have templates with the same body, the revisions are numbers and
leave room for `k` more. -/
structure Pair (k : Int) (d : FDep) (l : List FSet) (b a : FSet) : Prop where
  unique : (l.map (·.set.name)).Nodup
  now : l.find? (fun f => equalIgnoreHash f.tmpl d.template) = some b
  before : a ∈ l
  other : a.set.name ≠ b.set.name
  last : ∃ r, 0 < r ∧ HasRev a.annotations r ∧ ∀ f ∈ l, f.set.name ≠ a.set.name → f.set.name ≠ b.set.name → ∀ v, HasRev f.annotations v → v < r
  readable : Readable b.annotations
  room : (∀ f ∈ l, f.set.name ≠ b.set.name → ∀ v, HasRev f.annotations v → v + k < 2^63) ∧ ∀ v, HasRev b.annotations v → v + k ≤ 2^63
  bodies : ∀ f ∈ l, ∀ g ∈ l, f.tmpl.body = g.tmpl.body → f = g
  labels : IsMap b.tmpl.labels ∧ IsMap a.tmpl.labels

/-- the same template apart from what is changed in place -/
def SameTmpl (s t : FSet) : Prop := t.set.name = s.set.name ∧ t.tmpl.labels = s.tmpl.labels ∧ t.tmpl.body = s.tmpl.body

/-- what is changed in place is as the deployment asks for -/
def UpToDate (t : Tmpl) (f : FSet) : Prop := f.tmpl.nodeTemplate = t.nodeTemplate ∧ f.tmpl.config = t.config ∧ f.tmpl.classKind = t.classKind

/-- a deployment that is acted upon -/
structure Active (d : FDep) : Prop where
  alive : d.deleting = false
  unpaused : d.paused = false
  selects : d.selectsAll = false

/-- a run in which every call works -/
structure Works (e : Env) : Prop where
  valid : e.valid = true
  listed : e.listOk = true
  pre : e.preOk = true
  set : e.setOk = true
  dep : e.depOk = true
  update : e.updateOk = true

/-- What may happen between two rollbacks: runs of the controller with any outcomes, reports of the machine sets, and the removal of sets other than `b` and `a`. -/
inductive Days (d : FDep) (b a : String) : List FSet → List FSet → Prop
  | start (l : List FSet) : Days d b a l l
  | run {l l' : List FSet} (e : Env) (h : Days d b a l l') : Days d b a l (reconcile d e l').sets
  | report {l l' l'' : List FSet} (h : Days d b a l l') (hr : List.Forall₂ Rest.Reported l' l'') : Days d b a l l''
  | gone {l l' : List FSet} (n : String) (h : Days d b a l l') (hb : n ≠ b) (ha : n ≠ a) : Days d b a l (l'.filter fun x => !(x.set.name == n))

/-! ## Lemmas -/

theorem forall2_mem {R : FSet → FSet → Prop} {l l' : List FSet} (h : List.Forall₂ R l l') : ∀ a ∈ l, ∃ b ∈ l', R a b := by
  induction h with
  | nil => intro a ha; cases ha
  | cons h1 _ ih =>
    intro a ha
    rcases List.mem_cons.1 ha with rfl | ha
    · exact ⟨_, List.mem_cons_self, h1⟩
    · obtain ⟨b, hb, hr⟩ := ih a ha
      exact ⟨b, List.mem_cons_of_mem _ hb, hr⟩

/-- what a run or a report may do to a set, `b` being the name of the current one -/
structure Mild (k : Int) (b : String) (x y : FSet) : Prop where
  same : SameTmpl x y
  rest : x.set.name ≠ b → y.annotations = x.annotations ∧ y.tmpl = x.tmpl
  cur : x.set.name = b → Readable y.annotations ∧ ∀ v, HasRev y.annotations v → v + k ≤ 2^63

theorem undo_mild {k : Int} {d : FDep} {l l' : List FSet} {b a : FSet} (h : Pair k d l b a) (hm : List.Forall₂ (Mild k b.set.name) l l') :
    ∃ b' a', Pair k d l' b' a' ∧ SameTmpl b b' ∧ SameTmpl a a' ∧ a'.tmpl = a.tmpl := by
  have hb : b ∈ l := List.mem_of_find?_eq_some h.now
  have hu' : Unique l' := unique_forall2 (fun _ _ hx => hx.same.1) hm h.unique
  rcases cur_forall2 (d := d) (fun _ _ hx => ⟨hx.same.2.1, hx.same.2.2⟩) hm with ⟨h1, _⟩ | ⟨c, b', h1, h2, hbb⟩
  · have : Dispatch.cur d l = some b := h.now
    rw [h1] at this; cases this
  obtain rfl : c = b := Option.some.inj (h1.symm.trans h.now)
  obtain ⟨a', ha', haa⟩ := forall2_mem hm a h.before
  refine ⟨b', a', ⟨hu', h2, ha', ?_, ?_, ?_, ⟨?_, ?_⟩, ?_, ?_⟩, hbb.same, haa.same, (haa.rest h.other).2⟩
  · rw [haa.same.1, hbb.same.1]; exact h.other
  · obtain ⟨r, h0, hr, hlt⟩ := h.last
    refine ⟨r, h0, by rw [(haa.rest h.other).1]; exact hr, ?_⟩
    intro f hf hfa hfb v hv
    obtain ⟨g, hg, hgf⟩ := mem_forall2 hm f hf
    rw [hgf.same.1, haa.same.1] at hfa
    rw [hgf.same.1, hbb.same.1] at hfb
    rw [(hgf.rest hfb).1] at hv
    exact hlt g hg hfa hfb v hv
  · exact (hbb.cur rfl).1
  · intro f hf hfb v hv
    obtain ⟨g, hg, hgf⟩ := mem_forall2 hm f hf
    rw [hgf.same.1, hbb.same.1] at hfb
    rw [(hgf.rest hfb).1] at hv
    exact h.room.1 g hg hfb v hv
  · exact (hbb.cur rfl).2
  · intro f hf g hg hfg
    obtain ⟨x, hx, hxf⟩ := mem_forall2 hm f hf
    obtain ⟨y, hy, hyg⟩ := mem_forall2 hm g hg
    have : x = y := h.bodies x hx y hy (by rw [← hxf.same.2.2, ← hyg.same.2.2, hfg])
    subst this
    exact unique_eq l' hu' f g hf hg (by rw [hxf.same.1, hyg.same.1])
  · rw [hbb.same.2.1, haa.same.2.1]; exact h.labels

theorem sameRev_mild {k : Int} {d : FDep} {l l' : List FSet} {b a : FSet} (h : Pair k d l b a) (hs : List.Forall₂ SameRev l l') :
    List.Forall₂ (Mild k b.set.name) l l' := by
  have hb : b ∈ l := List.mem_of_find?_eq_some h.now
  have key : ∀ x ∈ l, x.set.name = b.set.name → Readable x.annotations ∧ ∀ v, HasRev x.annotations v → v + k ≤ 2^63 := by
    intro x hx hn
    obtain rfl := unique_eq l h.unique x b hx hb hn
    exact ⟨h.readable, h.room.2⟩
  have gen : ∀ {m m' : List FSet}, List.Forall₂ SameRev m m' → (∀ x ∈ m, x ∈ l) → List.Forall₂ (Mild k b.set.name) m m' := by
    intro m m' hm
    induction hm with
    | nil => intro _; exact .nil
    | cons h1 _ ih =>
      intro hsub
      refine .cons ⟨⟨h1.name, by rw [h1.tmpl], by rw [h1.tmpl]⟩, fun _ => ⟨h1.annotations, h1.tmpl⟩, fun hn => ?_⟩ (ih fun x hx => hsub x (List.mem_cons_of_mem _ hx))
      rw [h1.annotations]
      exact key _ (hsub _ List.mem_cons_self) hn
  exact gen hs fun _ hx => hx

/-! ### The revision of the current set -/

theorem synced_rev (da : SMap) (df : Diff) (t : String) (ann : SMap) :
    List.lookup revKey (synced da df t ann).1 = List.lookup revKey ann ∨ List.lookup revKey (synced da df t ann).1 = some t := by
  unfold synced
  dsimp only
  have h0 := lookup_copy da ann false revKey revKey_skipped
  rcases bump_cases t (copyAnnotations da ann false).1 (copyAnnotations da ann false).2 with h1 | ⟨h1, _⟩ <;>
  rcases bump_cases t (bumpRevision t (copyAnnotations da ann false).1 (copyAnnotations da ann false).2).1 df.nodeTemplate with h2 | ⟨h2, _⟩ <;>
  rcases bump_cases t (bumpRevision t (bumpRevision t (copyAnnotations da ann false).1 (copyAnnotations da ann false).2).1 df.nodeTemplate).1 df.config with h3 | ⟨h3, _⟩ <;>
  simp_all

theorem max_room {k : Int} {d : FDep} {l : List FSet} {b a : FSet} (h : Pair k d l b a) :
    maxRevision ((Dispatch.others l b.set.name).map (·.annotations)) 0 + k < 2^63 := by
  obtain ⟨r, h0, hr, _⟩ := h.last
  have ha := h.room.1 a h.before h.other r hr
  have := Rest.maxRevision_lt (b := 2^63 - k) ((Dispatch.others l b.set.name).map (·.annotations)) 0 (by omega) (by
    intro x hx v hv
    obtain ⟨f, hf, rfl⟩ := List.mem_map.1 hx
    obtain ⟨h1, h2⟩ := mem_others.1 hf
    by_cases hv0 : v = 0
    · omega
    · have := h.room.1 f h1 h2 v (Rollback.hasRev_of_revision hv hv0)
      omega)
  omega

theorem write_mild {k : Int} (hk : 1 ≤ k) {d d0 : FDep} {l : List FSet} {b a : FSet} (h : Pair k d l b a) : List.Forall₂ (Mild k b.set.name) l (writeCur d0 l b) := by
  have hb : b ∈ l := List.mem_of_find?_eq_some h.now
  unfold writeCur
  refine forall2_map _ _ fun x hx => ?_
  split
  · rename_i hn
    obtain rfl : x = b := unique_eq l h.unique x b hx hb (by simpa using hn)
    refine ⟨⟨rfl, rfl, rfl⟩, fun hn => absurd rfl hn, fun _ => ?_⟩
    have hmax := max_room h
    have ht := newRevisionText_atoi ((Dispatch.others l x.set.name).map (·.annotations)) (by omega)
    show Readable (synced _ _ _ _).1 ∧ ∀ v, HasRev (synced _ _ _ _).1 v → _
    rcases synced_rev d0.annotations (diff d0 x) (newRevisionText ((Dispatch.others l x.set.name).map (·.annotations))) x.annotations with h4 | h4
    · refine ⟨fun s hs => h.readable s (h4.symm.trans hs), ?_⟩
      rintro v ⟨s, hs, hv⟩
      exact h.room.2 v ⟨s, h4.symm.trans hs, hv⟩
    · refine ⟨fun s hs => .inr ⟨maxRevision ((Dispatch.others l x.set.name).map (·.annotations)) 0 + 1, ?_⟩, ?_⟩
      · obtain rfl := Option.some.inj (h4.symm.trans hs); exact ht
      · rintro v ⟨s, hs, hv⟩
        obtain rfl := Option.some.inj (h4.symm.trans hs)
        obtain rfl := Option.some.inj (ht.symm.trans hv)
        omega
  · rename_i hn
    exact ⟨⟨rfl, rfl, rfl⟩, fun _ => ⟨rfl, rfl⟩, fun h => absurd h (by simpa using hn)⟩

theorem readable_bump {t : String} {n : Int} (ht : atoi t = some n) {ann : SMap} (h : Readable ann) (ch : Bool) : Readable (bumpRevision t ann ch).1 := by
  intro s hs
  rcases bump_cases t ann ch with h1 | ⟨h1, _⟩
  · exact h s (h1.symm.trans hs)
  · obtain rfl := Option.some.inj (h1.symm.trans hs)
    exact .inr ⟨n, ht⟩

theorem no_diff {da : SMap} {df : Diff} {t : String} {n : Int} (ht : atoi t = some n) {ann : SMap} (h : Readable ann) (hs : (synced da df t ann).2 = false) :
    df.nodeTemplate = false ∧ df.config = false ∧ df.classKind = false := by
  unfold synced at hs
  dsimp only at hs
  have h0 : Readable (copyAnnotations da ann false).1 := fun s hl => h s ((lookup_copy da ann false revKey revKey_skipped).symm.trans hl)
  have h1 := readable_bump ht h0 (copyAnnotations da ann false).2
  have h2 := readable_bump ht h1 df.nodeTemplate
  obtain ⟨o1, ho1⟩ := readable_old h1
  obtain ⟨o2, ho2⟩ := readable_old h2
  rw [(bump_rev t _ df.nodeTemplate o1 n ho1 ht).2, (bump_rev t _ df.config o2 n ho2 ht).2] at hs
  simp only [Bool.or_eq_false_iff] at hs
  exact ⟨hs.1.1.2.1, hs.1.2.1, hs.2⟩

/-- the sets as a run with a rollback sees them -/
theorem got {k : Int} (hk : 1 ≤ k) {d : FDep} {l : List FSet} {b a : FSet} (h : Pair k d l b a) {e : Env} (he : Works e) (rb : Option Int) :
    ∃ l1 b1, (∃ w, getNew { d with rollbackTo := rb } e true l = { sets := l1, new := some b.set.name, wrote := w }) ∧ List.Forall₂ (Mild k b.set.name) l l1 ∧
      l1.map (·.set) = l.map (·.set) ∧ b1 ∈ l1 ∧ b1.set.name = b.set.name ∧ UpToDate d.template b1 ∧ ∃ r, HasRev b1.annotations r ∧ 0 < r ∧ ∀ f ∈ l, f.set.name ≠ b.set.name → ∀ v, HasRev f.annotations v → v < r := by
  have hb : b ∈ l := List.mem_of_find?_eq_some h.now
  have hc : Dispatch.cur { d with rollbackTo := rb } l = some b := h.now
  obtain ⟨r, h1, h2, h3⟩ := C15_new_revision_greatest_partial d.annotations (diff { d with rollbackTo := rb } b) ((Dispatch.others l b.set.name).map (·.annotations)) b.annotations h.readable (by
    intro x hx v hv
    obtain ⟨f, hf, rfl⟩ := List.mem_map.1 hx
    obtain ⟨h1, h2⟩ := mem_others.1 hf
    have := h.room.1 f h1 h2 v hv
    omega)
  have h3' : ∀ f ∈ l, f.set.name ≠ b.set.name → ∀ v, HasRev f.annotations v → v < r := fun f hf hn v hv =>
    h3 _ (List.mem_map.2 ⟨f, mem_others.2 ⟨hf, hn⟩, rfl⟩) v hv
  rw [getNew_cur hc]
  unfold syncExisting at h1
  dsimp only at h1
  cases hw : toWrite { d with rollbackTo := rb } l b with
  | true =>
    rw [sync_write hw, if_pos he.set]
    refine ⟨_, written { d with rollbackTo := rb } l b, ⟨true, rfl⟩, write_mild hk h, ?_, ?_, rfl, ⟨rfl, rfl, rfl⟩, r, ?_, h2, h3'⟩
    · exact map_forall2 (fun _ _ hx => hx.1) (written_forall2 h.unique hb)
    · unfold writeCur
      exact List.mem_map.2 ⟨b, hb, by simp⟩
    · unfold toWrite at hw
      rw [if_pos (by rw [Bool.and_true]; exact hw)] at h1
      exact h1
  | false =>
    rw [sync_rest hw, if_pos he.dep]
    refine ⟨l, b, ⟨false, rfl⟩, sameRev_mild h (forall2_refl (fun _ => ⟨rfl, rfl, rfl, rfl⟩) l), rfl, hb, rfl, ?_, r, ?_, h2, h3'⟩
    · have hmax := max_room h
      have hd := no_diff (newRevisionText_atoi _ (by omega)) h.readable hw
      simp only [diff, bne_eq_false_iff_eq] at hd
      exact hd
    unfold toWrite at hw
    rw [if_neg (by rw [Bool.and_true]; intro hh; exact absurd (hw.symm.trans hh) (by simp))] at h1
    exact h1

theorem last_append {c : SMap} {v : Int} (hc : revision c = some v) : ∀ (l : List SMap) (mx sec : Int), mx ≤ v → (∀ x ∈ l, ∀ w, revision x = some w → w ≤ v) →
    lastRevision (l ++ [c]) mx sec = maxRevision l mx
  | [], mx, sec, hm, _ => by
    rw [List.nil_append, lastRevision, hc, maxRevision]
    dsimp only
    rw [if_pos hm, lastRevision]
  | x :: l, mx, sec, hm, h => by
    have hl := fun y hy => h y (List.mem_cons_of_mem _ hy)
    rw [List.cons_append, lastRevision, maxRevision]
    cases hx : revision x with
    | none => exact last_append hc l mx sec hm hl
    | some w =>
      dsimp only
      have hw := h x List.mem_cons_self w hx
      by_cases h1 : w ≥ mx
      · rw [if_pos h1, last_append hc l w mx hw hl]
        by_cases h2 : w > mx
        · rw [if_pos h2]
        · rw [if_neg h2, show w = mx by omega]
      · rw [if_neg h1, if_neg (show ¬ w > mx by omega)]
        split <;> exact last_append hc l mx _ hm hl

theorem find_only {r : Int} {s : MSet} {l : List MSet} (hs : s ∈ l) (hr : revision s.annotations = some r) (h : ∀ t ∈ l, revision t.annotations = some r → t = s) :
    Rollback.findRevision r l = some s := by
  cases hf : Rollback.findRevision r l with
  | none => exact absurd hr (Rollback.findRevision_none r l hf s hs)
  | some t =>
    obtain ⟨h1, h2⟩ := Rollback.findRevision_some r l t hf
    rw [h t h1 h2]

theorem others_of {l : List FSet} {n : String} {w : Bool} : oldSets { sets := l, new := some n, wrote := w } = Dispatch.others l n := rfl

theorem undo_run {e : Env} (he : Works e) {d : FDep} (hd : Active d) {l : List FSet} {rv : Int} (hr : d.rollbackTo = some rv) : reconcile d e l = Dispatch.rollback d e rv l := by
  unfold reconcile
  simp [he.valid, he.listed, he.pre, hd.alive, hd.unpaused, hd.selects, hr]

/-! ## Theorems -/

/-- One undo: the deployment gets the template of the set before, the request is gone, no size changes, and now the set that was current is the one before.

Partial: the full statement, without conditions on the history, is false: `C134_unreadable_false` (a current revision that is not a number), `C17_added_label_false` (templates that differ
only in an added label, hence distinct bodies here), `C15_overflow_false` (no room for the revision). -/
theorem C134_undo_partial {k : Int} (hk : 0 ≤ k) {d : FDep} {l : List FSet} {b a : FSet} (h : Pair (k + 1) d l b a) (hd : Active d) {e : Env} (he : Works e) :
    (reconcile { d with rollbackTo := some 0 } e l).dep.rollbackTo = none ∧
    Rollback.TemplateOf (tsetOf a) (reconcile { d with rollbackTo := some 0 } e l).dep.template ∧
    Active (reconcile { d with rollbackTo := some 0 } e l).dep ∧
    (reconcile { d with rollbackTo := some 0 } e l).sets.map (·.set) = l.map (·.set) ∧
    ∃ b' a', Pair k (reconcile { d with rollbackTo := some 0 } e l).dep (reconcile { d with rollbackTo := some 0 } e l).sets a' b' ∧ SameTmpl b b' ∧ SameTmpl a a' ∧ UpToDate d.template b' := by
  obtain ⟨l1, b0, ⟨w, hg⟩, hm, hset, hb0, hb0n, hup, rb, hrb, hrb0, hrbgt⟩ := got (by omega) h he (some 0)
  obtain ⟨b1, a1, h1, hbb, haa, hat⟩ := undo_mild h hm
  have hb1 : b1 ∈ l1 := List.mem_of_find?_eq_some h1.now
  obtain rfl : b0 = b1 := unique_eq l1 h1.unique b0 b1 hb0 hb1 (by rw [hb0n, hbb.1])
  have hgt : ∀ f ∈ l1, f.set.name ≠ b0.set.name → ∀ v, HasRev f.annotations v → v < rb := by
    intro f hf hn v hv
    obtain ⟨g, hg, hgf⟩ := mem_forall2 hm f hf
    rw [hgf.same.1, hb0n] at hn
    rw [(hgf.rest hn).1] at hv
    exact hrbgt g hg hn v hv
  obtain ⟨r, hr0, hr, hlt⟩ := h1.last
  have hrrb : r < rb := hgt a1 h1.before h1.other r hr
  have hrev : ∀ {x : SMap} {v : Int}, revision x = some v → v = 0 ∨ HasRev x v := fun {x v} hx => by
    by_cases hv : v = 0
    · exact .inl hv
    · exact .inr (Rollback.hasRev_of_revision hx hv)
  have hmax : maxRevision ((Dispatch.others l1 b0.set.name).map (·.annotations)) 0 = r := by
    have h2 := mem_le_maxRevision ((Dispatch.others l1 b0.set.name).map (·.annotations)) 0 a1.annotations (List.mem_map.2 ⟨a1, mem_others.2 ⟨h1.before, h1.other⟩, rfl⟩) r
      (revision_of_hasRev hr)
    have h3 := Rest.maxRevision_lt (b := r + 1) ((Dispatch.others l1 b0.set.name).map (·.annotations)) 0 (by omega) (by
      intro x hx v hv
      obtain ⟨f, hf, rfl⟩ := List.mem_map.1 hx
      obtain ⟨h3, h4⟩ := mem_others.1 hf
      rcases hrev hv with rfl | hv
      · omega
      · by_cases hfa : f.set.name = a1.set.name
        · obtain rfl := unique_eq l1 h1.unique f a1 h3 h1.before hfa
          have := hasRev_unique hv hr
          omega
        · have := hlt f h3 hfa h4 v hv
          omega)
    omega
  have hlast : lastRevision (((Dispatch.others l1 b0.set.name ++ [b0]).map tsetOf).map (·.annotations)) 0 0 = r := by
    rw [List.map_map, List.map_append]
    refine (last_append (revision_of_hasRev hrb) _ 0 0 (by omega) ?_).trans hmax
    intro x hx v hv
    obtain ⟨f, hf, rfl⟩ := List.mem_map.1 hx
    obtain ⟨h3, h4⟩ := mem_others.1 hf
    rcases hrev hv with rfl | hv
    · omega
    · have := hgt f h3 h4 v hv
      omega
  have hfind : Rollback.findRevision r ((Dispatch.others l1 b0.set.name ++ [b0]).map tsetOf) = some (tsetOf a1) := by
    refine find_only (List.mem_map.2 ⟨a1, List.mem_append_left _ (mem_others.2 ⟨h1.before, h1.other⟩), rfl⟩) (revision_of_hasRev hr) ?_
    intro t ht htr
    obtain ⟨f, hf, rfl⟩ := List.mem_map.1 ht
    have hv : HasRev f.annotations r := Rollback.hasRev_of_revision htr (by omega)
    rcases List.mem_append.1 hf with hf | hf
    · obtain ⟨h3, h4⟩ := mem_others.1 hf
      by_cases hfa : f.set.name = a1.set.name
      · rw [unique_eq l1 h1.unique f a1 h3 h1.before hfa]
      · have := hlt f h3 hfa h4 r hv
        omega
    · obtain rfl := List.mem_singleton.1 hf
      have := hasRev_unique hv hrb
      omega
  have hbody : d.template.body = b0.tmpl.body := by
    have := List.find?_some h1.now
    simp only [equalIgnoreHash, Bool.and_eq_true, beq_iff_eq] at this
    exact this.2.symm
  have hdiff : equalIgnoreHash d.template a1.tmpl = false := by
    cases hh : equalIgnoreHash d.template a1.tmpl with
    | false => rfl
    | true =>
      simp only [equalIgnoreHash, Bool.and_eq_true, beq_iff_eq] at hh
      have := h1.bodies b0 hb1 a1 h1.before (by rw [← hbody, hh.2])
      exact absurd (congrArg (·.set.name) this).symm h1.other
  have hcur : curSet { sets := l1, new := some b.set.name, wrote := w } = some b0 := by
    rw [← hb0n]
    exact curSet_eq h1.unique hb1
  have hrun : reconcile { d with rollbackTo := some 0 } e l =
      ⟨{ d with template := Rollback.fromSet a1.tmpl, annotations := annotationsFromSet d.annotations a1.annotations, rollbackTo := none }, l1⟩ := by
    rw [undo_run he (d := { d with rollbackTo := some 0 }) ⟨hd.alive, hd.unpaused, hd.selects⟩ rfl]
    unfold Dispatch.rollback
    rw [hg]
    dsimp only
    rw [if_neg (by simp), hcur, others_of, ← hb0n]
    unfold Rollback.run Rollback.rollback
    rw [he.update]
    simp only [Bool.and_self, if_true, Option.toList_some, hlast]
    rw [if_neg (by omega), hfind]
    dsimp only
    unfold Rollback.rollbackToTemplate
    rw [if_neg (by rw [show (tsetOf a1).template = a1.tmpl from rfl, hdiff]; simp)]
    rfl
  rw [hrun]
  refine ⟨rfl, ?_, ⟨hd.alive, hd.unpaused, hd.selects⟩, hset, b0, a1, ?_, hbb, haa, hup⟩
  · have := Rollback.fromSet_spec (tsetOf a)
    show Rollback.TemplateOf (tsetOf a) (Rollback.fromSet a1.tmpl)
    rw [hat]
    exact this
  · refine ⟨h1.unique, ?_, hb1, fun hn => h1.other hn.symm, ⟨rb, hrb0, hrb, ?_⟩, ?_, ⟨?_, ?_⟩, h1.bodies, h1.labels.2, h1.labels.1⟩
    · show l1.find? (fun f => equalIgnoreHash f.tmpl (Rollback.fromSet a1.tmpl)) = some a1
      cases hf : l1.find? (fun f => equalIgnoreHash f.tmpl (Rollback.fromSet a1.tmpl)) with
      | none =>
        have := List.find?_eq_none.1 hf a1 h1.before
        exact absurd (Rollback.C17_set_becomes_current (tsetOf a1) h1.labels.2) this
      | some x =>
        have h2 := List.find?_some hf
        simp only [equalIgnoreHash, Bool.and_eq_true, beq_iff_eq] at h2
        rw [h1.bodies x (List.mem_of_find?_eq_some hf) a1 h1.before h2.2]
    · intro f hf hfb _ v hv
      exact hgt f hf hfb v hv
    · obtain ⟨s, hs, hv⟩ := hr
      intro s' hs'
      obtain rfl := Option.some.inj (hs.symm.trans hs')
      exact .inr ⟨r, hv⟩
    · intro f hf _ v hv
      by_cases hfb : f.set.name = b0.set.name
      · obtain rfl := unique_eq l1 h1.unique f b0 hf hb1 hfb
        have := h1.room.2 v hv
        omega
      · have := h1.room.1 f hf hfb v hv
        omega
    · intro v hv
      have := h1.room.1 a1 h1.before h1.other v hv
      omega

/-! ### Ordinary runs -/

theorem resize_rev (l : List FSet) (r : List Scale.MSet) : List.Forall₂ SameRev l (resize l r) := by
  refine forall2_map _ _ fun a _ => ?_
  split
  · rename_i s hs
    exact ⟨by simpa using List.find?_some hs, rfl, rfl, rfl⟩
  · exact ⟨rfl, rfl, rfl, rfl⟩

theorem rev_trans {a b c : List FSet} (h : List.Forall₂ SameRev a b) (h' : List.Forall₂ SameRev b c) : List.Forall₂ SameRev a c := by
  induction h generalizing c with
  | nil => exact h'
  | cons h1 _ ih =>
    cases h' with
    | cons h2 h3 => exact .cons ⟨h2.name.trans h1.name, h2.tmpl.trans h1.tmpl, h2.annotations.trans h1.annotations, h2.minReady.trans h1.minReady⟩ (ih h3)

theorem resizeMS_rev (d : Rolling.Dep) (l : List FSet) (r : List Rolling.MS) : List.Forall₂ SameRev l (resizeMS d l r) := by
  refine forall2_map _ _ fun a _ => ?_
  split
  · unfold withSize
    split <;> exact ⟨rfl, rfl, rfl, rfl⟩
  · exact ⟨rfl, rfl, rfl, rfl⟩

theorem cleanup_rev (d : FDep) (e : Env) (old l : List FSet) : List.Forall₂ SameRev l (rolloutCleanup d e old l) := (cleanup_alike d e old l).imp fun _ _ h => h.sameRev

theorem rev_refl (l : List FSet) : List.Forall₂ SameRev l l := forall2_refl (fun _ => ⟨rfl, rfl, rfl, rfl⟩) l


theorem getNew_rev {d : FDep} {e : Env} {create : Bool} {l : List FSet} {b : FSet} (hc : Dispatch.cur d l = some b) :
    ((getNew d e create l).sets = writeCur d l b ∧ (getNew d e create l).wrote = true ∧ toWrite d l b = true) ∨ (getNew d e create l).sets = l ∧
      ((getNew d e create l).err = true ∨ toWrite d l b = false) := by
  rw [getNew_cur hc]
  cases hw : toWrite d l b with
  | true =>
    rw [sync_write hw]
    split
    · exact .inl ⟨rfl, rfl, rfl⟩
    · exact .inr ⟨rfl, .inl rfl⟩
  | false =>
    rw [sync_rest hw]
    split
    · exact .inr ⟨rfl, .inr rfl⟩
    · exact .inr ⟨rfl, .inl rfl⟩

theorem rest_sets {d : FDep} {e : Env} {create : Bool} {l : List FSet} {b : FSet} (hc : Dispatch.cur d l = some b) (hw : toWrite d l b = false) :
    (getNew d e create l).sets = l := by
  rw [getNew_cur hc, sync_rest hw]
  split <;> rfl

theorem scaleOrRoll_rev {d : FDep} (hp : d.paused = false) {e : Env} {l : List FSet} {b : FSet} (hc : Dispatch.cur d l = some b) :
    List.Forall₂ SameRev l (scaleOrRoll d e l) ∨ scaleOrRoll d e l = writeCur d l b := by
  unfold scaleOrRoll
  dsimp only
  rcases getNew_rev (e := e) (create := false) hc with ⟨h1, h2, _⟩ | ⟨h1, h2⟩
  · rw [if_pos (by rw [h2, Bool.or_true])]
    exact .inr h1
  · left
    split
    · rw [h1]; exact rev_refl l
    · rename_i hn
      have hw : toWrite d l b = false := by
        rcases h2 with h2 | h2
        · rw [h2] at hn; simp at hn
        · exact h2
      split
      · unfold sync
        dsimp only
        rw [rest_sets hc hw]
        split
        · exact rev_refl l
        · split
          · exact resize_rev l _
          · unfold pausedCleanup
            rw [hp]
            exact resize_rev l _
      · split
        · unfold rolloutRecreate
          dsimp only
          rw [rest_sets hc hw]
          split
          · exact rev_refl l
          · have hif : ∀ c : Bool, (if c = true then getNew d e true l else getNew d e false l).sets = l := by
              intro c; split <;> exact rest_sets hc hw
            rw [hif]
            have fin : ∀ (c : Bool) (o : List FSet) (r : List Scale.MSet), List.Forall₂ SameRev l (if c = true then l else rolloutCleanup d e o (resize l r)) := by
              intro c o r
              split
              · exact rev_refl l
              · exact rev_trans (resize_rev l _) (cleanup_rev d e _ _)
            exact fin _ _ _
        · unfold rolloutRolling
          dsimp only
          rw [rest_sets hc hw]
          split
          · exact rev_refl l
          · split
            · exact rev_refl l
            · exact rev_trans (resizeMS_rev _ l _) (cleanup_rev d e _ _)
        · exact rev_refl l

theorem reconcile_rev {d : FDep} (hd : Active d) (hr : d.rollbackTo = none) (e : Env) {l : List FSet} {b : FSet} (hc : Dispatch.cur d l = some b) :
    List.Forall₂ SameRev l (reconcile d e l).sets ∨ (reconcile d e l).sets = writeCur d l b := by
  unfold reconcile
  rw [hd.selects, hd.alive, hd.unpaused, hr]
  split
  · exact .inl (rev_refl l)
  · rw [if_neg (by simp)]
    split
    · exact .inl (rev_refl l)
    · rw [if_neg (by simp)]
      split
      · exact .inl (rev_refl l)
      · rw [if_neg (by simp)]
        exact scaleOrRoll_rev hd.unpaused hc

theorem undo_gone {k : Int} {d : FDep} {l : List FSet} {b a : FSet} (h : Pair k d l b a) {n : String} (hb : n ≠ b.set.name) (ha : n ≠ a.set.name) :
    Pair k d (l.filter fun x => !(x.set.name == n)) b a := by
  have hsub : (l.filter fun x => !(x.set.name == n)).Sublist l := List.filter_sublist
  obtain ⟨r, h0, hr, hlt⟩ := h.last
  refine ⟨h.unique.sublist (hsub.map _), ?_, List.mem_filter.2 ⟨h.before, by simpa using fun hh : a.set.name = n => ha hh.symm⟩, h.other,
    ⟨r, h0, hr, fun f hf => hlt f (hsub.subset hf)⟩, h.readable, ⟨fun f hf => h.room.1 f (hsub.subset hf), h.room.2⟩,
    fun f hf g hg => h.bodies f (hsub.subset hf) g (hsub.subset hg), h.labels⟩
  exact (cur_drop (d := d) (n := n) fun c hc => by
    obtain rfl : c = b := Option.some.inj (hc.symm.trans h.now)
    exact fun hh => hb hh.symm).trans h.now

theorem days_pair {k : Int} (hk : 1 ≤ k) {d : FDep} (hd : Active d) (hr : d.rollbackTo = none) {l l' : List FSet} {b a : FSet} (h : Pair k d l b a)
    (hy : Days d b.set.name a.set.name l l') : ∃ b' a', Pair k d l' b' a' ∧ SameTmpl b b' ∧ SameTmpl a a' ∧ a'.tmpl = a.tmpl := by
  induction hy with
  | start => exact ⟨b, a, h, ⟨rfl, rfl, rfl⟩, ⟨rfl, rfl, rfl⟩, rfl⟩
  | @run l' e _ ih =>
    obtain ⟨b1, a1, h1, hb, ha, ht⟩ := ih
    have hm : List.Forall₂ (Mild k b1.set.name) l' (reconcile d e l').sets := by
      rcases reconcile_rev hd hr e h1.now with h2 | h2
      · exact sameRev_mild h1 h2
      · rw [h2]; exact write_mild hk h1
    obtain ⟨b2, a2, h2, hb2, ha2, ht2⟩ := undo_mild h1 hm
    exact ⟨b2, a2, h2, ⟨hb2.1.trans hb.1, hb2.2.1.trans hb.2.1, hb2.2.2.trans hb.2.2⟩, ⟨ha2.1.trans ha.1, ha2.2.1.trans ha.2.1, ha2.2.2.trans ha.2.2⟩, ht2.trans ht⟩
  | report _ hrep ih =>
    obtain ⟨b1, a1, h1, hb, ha, ht⟩ := ih
    obtain ⟨b2, a2, h2, hb2, ha2, ht2⟩ := undo_mild h1 (sameRev_mild h1 (hrep.imp (by rintro a _ ⟨_, _, _, _, rfl⟩; exact ⟨rfl, rfl, rfl, rfl⟩)))
    exact ⟨b2, a2, h2, ⟨hb2.1.trans hb.1, hb2.2.1.trans hb.2.1, hb2.2.2.trans hb.2.2⟩, ⟨ha2.1.trans ha.1, ha2.2.1.trans ha.2.1, ha2.2.2.trans ha.2.2⟩, ht2.trans ht⟩
  | gone n _ hnb hna ih =>
    obtain ⟨b1, a1, h1, hb, ha, ht⟩ := ih
    exact ⟨b1, a1, undo_gone h1 (by rw [hb.1]; exact hnb) (by rw [ha.1]; exact hna), hb, ha, ht⟩

theorem tmpl_eq (x y : Tmpl) (h1 : x.nodeTemplate = y.nodeTemplate) (h2 : x.config = y.config) (h3 : x.classKind = y.classKind) (h4 : x.body = y.body) :
    x = { y with labels := x.labels } := by
  cases x; cases y; simp_all

/-- Undoing an undo: after two rollbacks to the last revision, with any runs and reports and the removal of any other sets in between, the deployment has the labels of the set
it started with (without the hash) and everything else of its template exactly as it was at the start; that set is the current one again, and a third rollback would go to `a`.

Partial as `C134_undo_partial`; and the two sets have to stay, see `C134_gone_false`. -/
theorem C134_undo_undo_partial {k : Int} (hk : 0 ≤ k) {d : FDep} {l : List FSet} {b a : FSet} (h : Pair (k + 2) d l b a) (hd : Active d) {e e' : Env} (he : Works e) (he' : Works e')
    {d1 : FDep} {l1 : List FSet} (h1 : reconcile { d with rollbackTo := some 0 } e l = ⟨d1, l1⟩) {l2 : List FSet} (hy : Days d1 a.set.name b.set.name l1 l2)
    {d2 : FDep} {l3 : List FSet} (h2 : reconcile { d1 with rollbackTo := some 0 } e' l2 = ⟨d2, l3⟩) :
    d2.rollbackTo = none ∧
    (∀ n, List.lookup n d2.template.labels = if n = "machine-template-hash" then none else List.lookup n b.tmpl.labels) ∧
    d2.template = { d.template with labels := d2.template.labels } ∧
    l3.map (·.set) = l2.map (·.set) ∧
    ∃ b' a', Pair k d2 l3 b' a' ∧ SameTmpl b b' ∧ SameTmpl a a' := by
  obtain ⟨hr1, _, hd1, _, b1, a1, hp1, hb1, ha1, hup⟩ := C134_undo_partial (k := k + 1) (by omega) (by rw [show k + 1 + 1 = k + 2 by omega]; exact h) hd he
  rw [h1] at hr1 hd1 hp1
  dsimp only at hr1 hd1 hp1
  obtain ⟨a2, b2, hp2, ha2, hb2, ht2⟩ := days_pair (by omega) hd1 hr1 hp1 (by rw [hb1.1, ha1.1]; exact hy)
  obtain ⟨hr2, htm, _, hs2, a3, b3, hp3, ha3, hb3, _⟩ := C134_undo_partial hk hp2 hd1 he'
  rw [h2] at hr2 htm hs2 hp3
  dsimp only at hr2 htm hs2 hp3
  obtain ⟨t1, t2, t3, t4, t5⟩ := htm
  have hbody : d.template.body = b.tmpl.body := by
    have := List.find?_some h.now
    simp only [equalIgnoreHash, Bool.and_eq_true, beq_iff_eq] at this
    exact this.2.symm
  refine ⟨hr2, ?_, ?_, hs2, b3, a3, hp3, ?_, ?_⟩
  · intro n
    rw [t1 n]
    show (if _ then none else List.lookup n b2.tmpl.labels) = _
    rw [ht2, hb1.2.1]
  · have e1 : d2.template.nodeTemplate = d.template.nodeTemplate := t2.trans (by show b2.tmpl.nodeTemplate = _; rw [ht2, hup.1])
    have e2 : d2.template.config = d.template.config := t3.trans (by show b2.tmpl.config = _; rw [ht2, hup.2.1])
    have e3 : d2.template.classKind = d.template.classKind := t4.trans (by show b2.tmpl.classKind = _; rw [ht2, hup.2.2])
    have e4 : d2.template.body = d.template.body := t5.trans (by show b2.tmpl.body = _; rw [hb2.2.2, hb1.2.2, hbody])
    exact tmpl_eq _ _ e1 e2 e3 e4
  · exact ⟨hb3.1.trans (hb2.1.trans hb1.1), hb3.2.1.trans (hb2.2.1.trans hb1.2.1), hb3.2.2.trans (hb2.2.2.trans hb1.2.2)⟩
  · exact ⟨ha3.1.trans (ha2.1.trans ha1.1), ha3.2.1.trans (ha2.2.1.trans ha1.2.1), ha3.2.2.trans (ha2.2.2.trans ha1.2.2)⟩

/-! ### A case, and what is missing -/

def exDep : FDep := { spec := { replicas := 3, maxSurge := some (.int 1), maxUnavailable := some (.int 1) }, template := { labels := [("app", "x")], body := "3", config := "c" } }
def exSet (n body rev : String) (spec : Int) : FSet :=
  { set := { name := n, spec := spec, avail := spec }, tmpl := { labels := [("app", "x"), ("machine-template-hash", n)], body := body }, annotations := [(revKey, rev)] }
def exSets : List FSet := [exSet "s1" "1" "1" 0, exSet "s2" "2" "2" 2, exSet "s3" "3" "3" 1]

/-- the hypotheses are met: three generations, in the middle of a rollout -/
example : Pair 7 exDep exSets (exSet "s3" "3" "3" 1) (exSet "s2" "2" "2" 2) ∧ Active exDep := by
  have hrev : ∀ f ∈ exSets, ∀ v, HasRev f.annotations v → (f.set.name = "s1" ∧ v = 1) ∨ (f.set.name = "s2" ∧ v = 2) ∨ (f.set.name = "s3" ∧ v = 3) := by
    intro f hf v hv
    have h := revision_of_hasRev hv
    simp only [exSets, List.mem_cons, List.not_mem_nil, or_false] at hf
    rcases hf with rfl | rfl | rfl
    · exact .inl ⟨rfl, Option.some.inj (h.symm.trans (by decide +kernel : revision (exSet "s1" "1" "1" 0).annotations = some 1))⟩
    · exact .inr (.inl ⟨rfl, Option.some.inj (h.symm.trans (by decide +kernel : revision (exSet "s2" "2" "2" 2).annotations = some 2))⟩)
    · exact .inr (.inr ⟨rfl, Option.some.inj (h.symm.trans (by decide +kernel : revision (exSet "s3" "3" "3" 1).annotations = some 3))⟩)
  refine ⟨⟨by decide +kernel, by decide +kernel, by decide +kernel, by decide +kernel, ⟨2, by decide, ⟨"2", by decide +kernel, by decide +kernel⟩, ?_⟩, ?_, ⟨?_, ?_⟩, by decide +kernel, ?_⟩,
    ⟨rfl, rfl, rfl⟩⟩
  · intro f hf h2 h3 v hv
    rcases hrev f hf v hv with ⟨_, rfl⟩ | ⟨h, _⟩ | ⟨h, _⟩
    · decide
    · exact absurd h h2
    · exact absurd h h3
  · intro s hs
    obtain rfl : "3" = s := Option.some.inj ((by decide +kernel : List.lookup "deployment.kubernetes.io/revision" (exSet "s3" "3" "3" 1).annotations = some "3").symm.trans hs)
    exact .inr ⟨3, by decide +kernel⟩
  · intro f hf _ v hv
    rcases hrev f hf v hv with ⟨_, rfl⟩ | ⟨_, rfl⟩ | ⟨_, rfl⟩ <;> decide
  · intro v hv
    rcases hrev (exSet "s3" "3" "3" 1) (by decide +kernel) v hv with ⟨_, rfl⟩ | ⟨_, rfl⟩ | ⟨_, rfl⟩ <;> decide
  · unfold IsMap; decide +kernel

/-- two undos in a row, and what a third one would give -/
example : ((reconcile { exDep with rollbackTo := some 0 } {} exSets).dep.template.body = "2") ∧
    (let o := reconcile { exDep with rollbackTo := some 0 } {} exSets
     let o' := reconcile { o.dep with rollbackTo := some 0 } {} (reconcile o.dep {} o.sets).sets
     o'.dep.template.body = "3" ∧ o'.dep.template.config = "c" ∧ (reconcile { o'.dep with rollbackTo := some 0 } {} o'.sets).dep.template.body = "2") := by
  decide +kernel

/-- It is necessary that the set stays: with a history limit of 0 the set undone is removed once the rollout is complete, and the second undo changes nothing. -/
theorem C134_gone_false : ∃ (d : FDep) (l : List FSet) (e : Env), Active d ∧ Works e ∧
    (reconcile { d with rollbackTo := some 0 } {} l).dep.template.body = "1" ∧
    (let o := reconcile { d with rollbackTo := some 0 } {} l
     let l1 := (reconcile o.dep e (reconcile o.dep e o.sets).sets).sets
     (∃ f ∈ l1, f.tmpl.body = d.template.body ∧ f.deleting = true) ∧
     (reconcile { o.dep with rollbackTo := some 0 } {} (l1.filter fun f => !f.deleting)).dep.template.body = "1") := by
  refine ⟨{ exDep with template := { body := "3" }, limit := some 0 }, [
    { set := { name := "s1", spec := 3, avail := 3, desired := some "3", maxR := some "4" }, tmpl := { body := "1" }, annotations := [(revKey, "4")] },
    { set := { name := "s3", spec := 0 }, tmpl := { body := "3" }, annotations := [(revKey, "5")] }], { cleanupReached := true }, ⟨rfl, rfl, rfl⟩, ⟨rfl, rfl, rfl, rfl, rfl, rfl⟩, ?_⟩
  decide +kernel

/-- It is necessary that the revision of the current set can be read: otherwise the undo skips the set before and goes one further back. -/
theorem C134_unreadable_false : ∃ (d : FDep) (l : List FSet), Active d ∧ (∃ f ∈ l, equalIgnoreHash f.tmpl d.template = true ∧ f.annotations = [(revKey, "x")]) ∧
    (∃ f ∈ l, f.tmpl.body = "2" ∧ HasRev f.annotations 2) ∧ (∃ f ∈ l, f.tmpl.body = "1" ∧ HasRev f.annotations 1) ∧
    (reconcile { d with rollbackTo := some 0 } {} l).dep.template.body = "1" := by
  refine ⟨exDep, [exSet "s1" "1" "1" 0, exSet "s2" "2" "2" 2, exSet "s3" "3" "x" 1], ⟨rfl, rfl, rfl⟩, ⟨exSet "s3" "3" "x" 1, by decide +kernel⟩,
    ⟨exSet "s2" "2" "2" 2, by decide +kernel, rfl, "2", by decide +kernel, by decide +kernel⟩, ⟨exSet "s1" "1" "1" 0, by decide +kernel, rfl, "1", by decide +kernel, by decide +kernel⟩, ?_⟩
  decide +kernel

end MCM.Undo
