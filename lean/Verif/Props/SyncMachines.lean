import Verif.Model.SyncMachines
import Mathlib.Data.List.Forall2
import Mathlib.Logic.Function.Iterate
/-!
C49: changes of a machine set reach its machines.
-/
namespace MCM.SyncMachines

/-- the requests succeed and the watch does not interfere -/
def Smooth (att : Field → String → List Attempt) : Prop := ∀ f n, ∃ as, att f n = { refresh := false, error := false } :: as ∧ ∀ a ∈ as, a.error = false ∧ a.refresh = false

/-- the field of the stored machine agrees with the set -/
def Agrees (f : Field) (want : Spec) (m : Mach) : Prop := m.stored.spec.get f = want.get f

/-- what stays: name, activity, and the stored fields that already agree -/
def Keeps (want : Spec) (m m' : Mach) : Prop :=
  m'.name = m.name ∧ m'.active = m.active ∧ ∀ f, Agrees f want m → Agrees f want m'

theorem Keeps.refl (want : Spec) (m : Mach) : Keeps want m m := ⟨rfl, rfl, fun _ h => h⟩
theorem Keeps.trans {want : Spec} {a b c : Mach} (h1 : Keeps want a b) (h2 : Keeps want b c) : Keeps want a c :=
  ⟨h2.1.trans h1.1, h2.2.1.trans h1.2.1, fun f h => h2.2.2 f (h1.2.2 f h)⟩

theorem get_copy_self (s want : Spec) (f : Field) : (s.copy want f).get f = want.get f := by cases f <;> rfl
theorem get_copy_ne (s want : Spec) (f g : Field) (h : g ≠ f) : (s.copy want f).get g = s.get g := by
  cases f <;> cases g <;> first | exact absurd rfl h | rfl

/-- the cached object, if it has the version of the stored one, is the stored one with some fields replaced by the wanted ones; and what
agrees in the stored object agrees in it too -/
def Sound (want : Spec) (m : Mach) : Prop :=
  m.cached.version = m.stored.version → ∀ f, m.cached.spec.get f = m.stored.spec.get f ∨ m.cached.spec.get f = want.get f

theorem Sound.refresh (want : Spec) (m : Mach) : Sound want m.refresh := fun _ _ => .inl rfl

theorem write_spec (want : Spec) : ∀ (as : List Attempt) (m : Mach), Sound want m →
    Keeps want m (write as m).1 ∧ Sound want (write as m).1 := by
  intro as
  induction as with
  | nil => exact fun m h => ⟨Keeps.refl _ _, h⟩
  | cons a as ih =>
    intro m hm
    rw [write]
    have key : ∀ m' : Mach, Keeps want m m' → Sound want m' →
        Keeps want m (if a.error then (m', false) else if m'.cached.version = m'.stored.version then
          ({ m' with stored := { version := m'.stored.version + 1, spec := m'.cached.spec } }, true) else write as m').1 ∧
        Sound want (if a.error then (m', false) else if m'.cached.version = m'.stored.version then
          ({ m' with stored := { version := m'.stored.version + 1, spec := m'.cached.spec } }, true) else write as m').1 := by
      intro m' hk hs
      split
      · exact ⟨hk, hs⟩
      · split
        · rename_i hv
          refine ⟨hk.trans ⟨rfl, rfl, fun f hf => ?_⟩, fun h => ?_⟩
          · rcases hs hv f with h | h
            · exact h.trans hf
            · exact h
          · exfalso
            change m'.cached.version = m'.stored.version + 1 at h
            omega
        · obtain ⟨h1, h2⟩ := ih m' hs
          exact ⟨hk.trans h1, h2⟩
    have hk : Keeps want m (if a.refresh then m.refresh else m) ∧ Sound want (if a.refresh then m.refresh else m) := by
      split
      · exact ⟨⟨rfl, rfl, fun _ h => h⟩, Sound.refresh want m⟩
      · exact ⟨Keeps.refl _ _, hm⟩
    exact key _ hk.1 hk.2

theorem syncOne_spec (f : Field) (want : Spec) (as : List Attempt) (m : Mach) (h : Sound want m) :
    Keeps want m (syncOne f want as m).1 ∧ Sound want (syncOne f want as m).1 := by
  unfold syncOne
  split
  · exact ⟨Keeps.refl _ _, h⟩
  · split
    · exact ⟨Keeps.refl _ _, h⟩
    · obtain ⟨h1, h2⟩ := write_spec want (as.take 4) { m with cached := { m.cached with spec := m.cached.spec.copy want f } } (fun hv g => by
        by_cases hg : g = f
        · subst hg; right; exact get_copy_self _ _ _
        · rcases h hv g with h | h
          · left; exact (get_copy_ne _ _ _ _ hg).trans h
          · right; exact (get_copy_ne _ _ _ _ hg).trans h)
      exact ⟨Keeps.trans (show Keeps want m { m with cached := { m.cached with spec := m.cached.spec.copy want f } } from ⟨rfl, rfl, fun _ h => h⟩) h1, h2⟩

theorem sync_spec (f : Field) (want : Spec) (att : String → List Attempt) : ∀ ms : List Mach, (∀ m ∈ ms, Sound want m) →
    List.Forall₂ (fun m m' => Keeps want m m' ∧ Sound want m') ms (sync f want att ms).1 := by
  intro ms
  induction ms with
  | nil => exact fun _ => .nil
  | cons m ms ih =>
    intro h
    rw [sync]
    dsimp only
    have h1 := syncOne_spec f want (att m.name) m (h m List.mem_cons_self)
    split
    · exact .cons h1 (ih fun x hx => h x (List.mem_cons_of_mem _ hx))
    · refine .cons h1 ?_
      have : ∀ l : List Mach, (∀ x ∈ l, Sound want x) → List.Forall₂ (fun m m' => Keeps want m m' ∧ Sound want m') l l := by
        intro l
        induction l with
        | nil => exact fun _ => .nil
        | cons x l ih => exact fun h => .cons ⟨Keeps.refl _ _, h x List.mem_cons_self⟩ (ih fun y hy => h y (List.mem_cons_of_mem _ hy))
      exact this ms fun x hx => h x (List.mem_cons_of_mem _ hx)

theorem forall2_trans {want : Spec} : ∀ {a b c : List Mach}, List.Forall₂ (fun m m' => Keeps want m m' ∧ Sound want m') a b →
    List.Forall₂ (fun m m' => Keeps want m m' ∧ Sound want m') b c → List.Forall₂ (fun m m' => Keeps want m m' ∧ Sound want m') a c := by
  intro a b c h1
  induction h1 generalizing c with
  | nil => exact fun h => by cases h; exact .nil
  | cons h _ ih =>
    intro h2
    cases h2 with
    | cons h' t => exact .cons ⟨h.1.trans h'.1, h'.2⟩ (ih t)

theorem sound_of_forall2 {want : Spec} {a b : List Mach} (h : List.Forall₂ (fun m m' => Keeps want m m' ∧ Sound want m') a b) :
    ∀ m ∈ b, Sound want m := by
  induction h with
  | nil => exact fun _ h => (nomatch h)
  | cons h _ ih =>
    intro m hm
    rcases List.mem_cons.1 hm with rfl | hm
    · exact h.2
    · exact ih m hm

/-- C49: Whatever fails and whatever the cache shows, no reconcile undoes an agreement: what agrees with the set stays so. (`Sound`: the
cache holds an old state, or the present one with some fields already replaced; this is kept, and the watch only replaces the
cached object by the stored one.) -/
theorem C49_never_undone (want : Spec) (att : Field → String → List Attempt) (ms : List Mach) (h : ∀ m ∈ ms, Sound want m) :
    List.Forall₂ (fun m m' => Keeps want m m' ∧ Sound want m') ms (reconcile want att ms).1 := by
  unfold reconcile
  dsimp only
  have h1 := sync_spec .template want (att .template) ms h
  split
  · have h2 := sync_spec .config want (att .config) _ (sound_of_forall2 h1)
    split
    · exact forall2_trans (forall2_trans h1 h2) (sync_spec .kind want (att .kind) _ (sound_of_forall2 (forall2_trans h1 h2)))
    · exact forall2_trans h1 h2
  · exact h1

/-! ### progress -/

/-- a machine whose cached object is the stored one, apart from what does not need to be written -/
def Fresh (m : Mach) : Prop := m.cached = m.stored

theorem syncOne_fresh (f : Field) (want : Spec) (as : List Attempt) (m : Mach) (hm : Fresh m)
    (has : ∃ as', as = { refresh := false, error := false } :: as') :
    (syncOne f want as m).2 = true ∧ (m.skipped f = false → Agrees f want (syncOne f want as m).1) ∧
    (m.skipped f = true ∨ Agrees f want m → (syncOne f want as m).1 = m) := by
  obtain ⟨as', rfl⟩ := has
  unfold syncOne Agrees
  by_cases hs : m.skipped f = true
  · rw [if_pos hs]
    exact ⟨rfl, fun h => absurd (hs.symm.trans h) (by decide), fun _ => rfl⟩
  · rw [if_neg hs]
    have hc : m.cached.spec = m.stored.spec := by rw [hm]
    by_cases he : m.cached.spec.get f = want.get f
    · rw [if_pos he]
      exact ⟨rfl, fun _ => by rw [← hc]; exact he, fun _ => rfl⟩
    · rw [if_neg he]
      have hv : m.cached.version = m.stored.version := by rw [hm]
      have hw : write (List.take 4 ({ refresh := false, error := false } :: as')) { m with cached := { m.cached with spec := m.cached.spec.copy want f } } =
          ({ m with cached := { m.cached with spec := m.cached.spec.copy want f }, stored := { version := m.stored.version + 1, spec := m.cached.spec.copy want f } }, true) := by
        rw [List.take_succ_cons, write]
        simp [hv]
      rw [hw]
      refine ⟨rfl, fun _ => get_copy_self _ _ _, fun h => ?_⟩
      rcases h with h | h
      · exact absurd h hs
      · exact absurd (by rw [hc]; exact h) he

/-- C49: A pass over machines the cache of which is up to date, with requests that succeed, makes all active machines (for the class
kind: all machines) agree in the field, and leaves machines alone that agree already. -/
theorem C49_pass (f : Field) (want : Spec) (att : Field → String → List Attempt) (ha : Smooth att) : ∀ ms : List Mach, (∀ m ∈ ms, Fresh m) →
    (sync f want (att f) ms).2 = true ∧ (∀ m ∈ (sync f want (att f) ms).1, m.skipped f = false → Agrees f want m) ∧
    ((∀ m ∈ ms, m.skipped f = true ∨ Agrees f want m) → (sync f want (att f) ms).1 = ms) := by
  intro ms
  induction ms with
  | nil => exact fun _ => ⟨rfl, fun _ h => (nomatch h), fun _ => rfl⟩
  | cons m ms ih =>
    intro hf
    obtain ⟨h1, h2, h3⟩ := syncOne_fresh f want (att f m.name) m (hf m List.mem_cons_self) (by obtain ⟨as, h, _⟩ := ha f m.name; exact ⟨as, h⟩)
    obtain ⟨i1, i2, i3⟩ := ih fun x hx => hf x (List.mem_cons_of_mem _ hx)
    rw [sync]
    dsimp only
    rw [if_pos h1]
    refine ⟨i1, fun x hx hs => ?_, fun h => ?_⟩
    · rcases List.mem_cons.1 hx with rfl | hx
      · have hk := (syncOne_spec f want (att f m.name) m (fun _ g => .inl (by rw [hf m List.mem_cons_self]))).1
        refine h2 ?_
        rw [← hs]
        unfold Mach.skipped
        cases f <;> simp [hk.2.1]
      · exact i2 x hx hs
    · rw [h3 (h m List.mem_cons_self), i3 fun x hx => h x (List.mem_cons_of_mem _ hx)]

/-- the watch delivers everything, then a reconcile follows -/
def round (want : Spec) (att : Field → String → List Attempt) (ms : List Mach) : List Mach := (reconcile want att (ms.map Mach.refresh)).1

theorem keeps_all {want : Spec} {a b : List Mach} (h : List.Forall₂ (fun m m' => Keeps want m m' ∧ Sound want m') a b) (f : Field)
    (ha : ∀ m ∈ a, m.skipped f = false → Agrees f want m) : ∀ m ∈ b, m.skipped f = false → Agrees f want m := by
  induction h with
  | nil => exact fun _ h => (nomatch h)
  | @cons x y _ _ h _ ih =>
    intro m hm hs
    rcases List.mem_cons.1 hm with rfl | hm
    · refine h.1.2.2 f (ha x List.mem_cons_self ?_)
      rw [← hs]
      unfold Mach.skipped
      cases f <;> simp [h.1.2.1]
    · exact ih (fun x hx => ha x (List.mem_cons_of_mem _ hx)) m hm hs

theorem refresh_all (want : Spec) (ms : List Mach) (f : Field) (h : ∀ m ∈ ms, m.skipped f = false → Agrees f want m) :
    ∀ m ∈ ms.map Mach.refresh, m.skipped f = false → Agrees f want m := by
  intro m hm
  obtain ⟨x, hx, rfl⟩ := List.mem_map.1 hm
  exact h x hx

theorem fresh_all (ms : List Mach) : ∀ m ∈ ms.map Mach.refresh, Fresh m := by
  intro m hm
  obtain ⟨x, _, rfl⟩ := List.mem_map.1 hm
  rfl

theorem skipped_or {want : Spec} {ms : List Mach} {f : Field} (h : ∀ m ∈ ms, m.skipped f = false → Agrees f want m) :
    ∀ m ∈ ms, m.skipped f = true ∨ Agrees f want m := by
  intro m hm
  cases hs : m.skipped f with
  | true => exact .inl rfl
  | false => exact .inr (h m hm hs)

theorem round_keeps (want : Spec) (att : Field → String → List Attempt) (ms : List Mach) (f : Field)
    (h : ∀ m ∈ ms, m.skipped f = false → Agrees f want m) : ∀ m ∈ round want att ms, m.skipped f = false → Agrees f want m := by
  refine keeps_all (C49_never_undone want att (ms.map Mach.refresh) ?_) f (refresh_all want ms f h)
  intro m hm
  obtain ⟨x, _, rfl⟩ := List.mem_map.1 hm
  exact Sound.refresh want x

/-- a round makes template agree; if it agreed before, the configuration; if both agreed, the class kind -/
theorem round_progress (want : Spec) (att : Field → String → List Attempt) (ha : Smooth att) (ms : List Mach) :
    (∀ m ∈ round want att ms, m.skipped .template = false → Agrees .template want m) ∧
    ((∀ m ∈ ms, m.skipped .template = false → Agrees .template want m) →
      ∀ m ∈ round want att ms, m.skipped .config = false → Agrees .config want m) ∧
    ((∀ m ∈ ms, m.skipped .template = false → Agrees .template want m) → (∀ m ∈ ms, m.skipped .config = false → Agrees .config want m) →
      ∀ m ∈ round want att ms, m.skipped .kind = false → Agrees .kind want m) := by
  unfold round reconcile
  dsimp only
  obtain ⟨t1, t2, t3⟩ := C49_pass .template want att ha _ (fresh_all ms)
  rw [if_pos t1]
  have hsound : ∀ m ∈ ms.map Mach.refresh, Sound want m := by
    intro m hm
    obtain ⟨x, _, rfl⟩ := List.mem_map.1 hm
    exact Sound.refresh want x
  have s1 := sync_spec .template want (att .template) _ hsound
  have s2 := sync_spec .config want (att .config) _ (sound_of_forall2 s1)
  have s3 := sync_spec .kind want (att .kind) _ (sound_of_forall2 (forall2_trans s1 s2))
  refine ⟨?_, fun h => ?_, fun h h' => ?_⟩
  · split
    · exact keeps_all s3 _ (keeps_all s2 _ t2)
    · exact keeps_all s2 _ t2
  · rw [t3 (skipped_or (refresh_all want ms _ h))] at s2 s3 ⊢
    obtain ⟨c1, c2, c3⟩ := C49_pass .config want att ha _ (fresh_all ms)
    rw [if_pos c1]
    exact keeps_all s3 _ c2
  · rw [t3 (skipped_or (refresh_all want ms _ h))]
    obtain ⟨c1, c2, c3⟩ := C49_pass .config want att ha _ (fresh_all ms)
    rw [if_pos c1, c3 (skipped_or (refresh_all want ms _ h'))]
    exact (C49_pass .kind want att ha _ (fresh_all ms)).2.1

/-- C49: Whatever happened before, after three rounds in which the watch delivers and the requests succeed all active machines agree with
the set in template, configuration and class kind, and stay so in all later rounds. -/
theorem C49_converges (want : Spec) (att : Field → String → List Attempt) (ha : Smooth att) (ms : List Mach) (n : Nat) :
    ∀ m ∈ (round want att)^[n + 3] ms, m.active = true → m.stored.spec = want := by
  have rec3 : ∀ ms : List Mach, ∀ f, ∀ m ∈ round want att (round want att (round want att ms)), m.skipped f = false → Agrees f want m := by
    intro ms f
    obtain ⟨a1, _, _⟩ := round_progress want att ha ms
    obtain ⟨_, b2, _⟩ := round_progress want att ha (round want att ms)
    obtain ⟨_, _, c3⟩ := round_progress want att ha (round want att (round want att ms))
    have b1 := round_keeps want att _ .template a1
    cases f with
    | template => exact round_keeps want att _ .template b1
    | config => exact round_keeps want att _ .config (b2 a1)
    | kind => exact c3 b1 (b2 a1)
  have all : ∀ n, ∀ f, ∀ m ∈ (round want att)^[n + 3] ms, m.skipped f = false → Agrees f want m := by
    intro n f
    rw [Nat.add_comm, Function.iterate_add_apply]
    exact rec3 _ f
  intro m hm hact
  have h : ∀ f, m.stored.spec.get f = want.get f := fun f => all n f m hm (by unfold Mach.skipped; cases f <;> simp [hact])
  have h1 := h .template
  have h2 := h .config
  have h3 := h .kind
  rcases hm' : m.stored.spec with ⟨a, b, c⟩
  rw [hm'] at h1 h2 h3
  rcases want with ⟨a', b', c'⟩
  change a = a' at h1
  change b = b' at h2
  change c = c' at h3
  rw [h1, h2, h3]

/-- C49, false part: A failed update is not retried: the failed attempt has already changed the cached object, so all later reconciles find
nothing to do, although the stored machine differs, until the watch delivers a change of the machine for some other reason. -/
theorem C49_failed_not_retried_false : ¬ ∀ (want : Spec) (a1 a2 : Field → String → List Attempt) (ms : List Mach), (∀ m ∈ ms, Fresh m) → Smooth a2 →
    ∀ m ∈ (reconcile want a2 (reconcile want a1 ms).1).1, m.active = true → m.stored.spec = want := by
  intro h
  have := h ⟨"new", "c", "k"⟩ (fun _ _ => [{ error := true }]) (fun _ _ => [{}])
    [{ name := "m", stored := ⟨1, ⟨"old", "c", "k"⟩⟩, cached := ⟨1, ⟨"old", "c", "k"⟩⟩ }]
    (by intro m hm; have := List.mem_singleton.1 hm; subst this; rfl) (fun _ _ => ⟨[], rfl, fun _ h => (nomatch h)⟩)
    { name := "m", stored := ⟨1, ⟨"old", "c", "k"⟩⟩, cached := ⟨1, ⟨"new", "c", "k"⟩⟩ } (by decide) rfl
  revert this
  decide

/-- C49, false part: and a reconcile can report success without having changed a machine that differs: when the watch replaces the cached
object at the wrong moment, the object written is the unchanged one. -/
theorem C49_success_without_change_false : ¬ ∀ (want : Spec) (att : Field → String → List Attempt) (ms : List Mach), (reconcile want att ms).2 = true →
    ∀ m ∈ (reconcile want att ms).1, m.active = true → m.stored.spec = want := by
  intro h
  have := h ⟨"new", "c", "k"⟩ (fun _ _ => [{ refresh := true }])
    [{ name := "m", stored := ⟨1, ⟨"old", "c", "k"⟩⟩, cached := ⟨1, ⟨"old", "c", "k"⟩⟩ }] (by decide)
    { name := "m", stored := ⟨2, ⟨"old", "c", "k"⟩⟩, cached := ⟨1, ⟨"old", "c", "k"⟩⟩ } (by decide) rfl
  revert this
  decide

/-- C49, false part: One round is not enough when two parts change at once: the second write conflicts with the first. -/
theorem C49_two_changes_false : ¬ ∀ (want : Spec) (att : Field → String → List Attempt) (ms : List Mach), Smooth att →
    ∀ m ∈ round want att ms, m.active = true → m.stored.spec = want := by
  intro h
  have := h ⟨"new", "new", "k"⟩ (fun _ _ => [{}])
    [{ name := "m", stored := ⟨1, ⟨"old", "old", "k"⟩⟩, cached := ⟨1, ⟨"old", "old", "k"⟩⟩ }] (fun _ _ => ⟨[], rfl, fun _ h => (nomatch h)⟩)
    { name := "m", stored := ⟨2, ⟨"new", "old", "k"⟩⟩, cached := ⟨1, ⟨"new", "new", "k"⟩⟩ } (by decide) rfl
  revert this
  decide

example : ((round ⟨"new", "new", "new"⟩ (fun _ _ => [{}]))^[3]
    [{ name := "m", stored := ⟨7, ⟨"old", "old", "k"⟩⟩, cached := ⟨3, ⟨"x", "y", "k"⟩⟩ }, { name := "n", active := false, stored := ⟨1, ⟨"old", "c", "k"⟩⟩, cached := ⟨1, ⟨"old", "c", "k"⟩⟩ }]).map (·.stored.spec)
    = [⟨"new", "new", "new"⟩, ⟨"old", "c", "new"⟩] := by decide

end MCM.SyncMachines
