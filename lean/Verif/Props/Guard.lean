import Verif.Model.Guard
import Verif.Props.Freeze
import Verif.Props.Lag
/-!
C125: the overshooting safety controller bounds what the machine set controller does on a cache that is behind, as far as it sees more than the latter.
-/
namespace MCM.Guard
open MCM MCM.MachineSet MCM.Freeze

/-! ## Specification -/

/-- What a run of the safety controller sees of the set: the set as it is, with a limit of at most `h`; of its machines those in the cache. Nobody asked to unfreeze it. -/
structure Shows (o : Opts) (h : Int) (g : G) (w : Views) : Prop where
  current : ∀ s ∈ w.v1.sets, s.name = g.name → s ∈ g.objs.sets
  limit : ∀ s ∈ w.v1.sets, s.name = g.name → ∃ h' ≤ h, Limit o w.v1 s h'
  machines : ∀ s ∈ w.v1.sets, s.name = g.name → backing w.v1 s = g.cache.length
  unasked : ¬ Asked w.v4 g.name

/-- nothing is to be done about the set `x` -/
def Idle (o : Opts) (v : View) (x : FSet) : Prop :=
  ∃ k, Limit o v x k ∧ (x.label = false → backing v x < k) ∧ (x.label = true ∨ x.cond = true → k - o.down < backing v x)

/-- the run comes to the set: nothing is to be done about the sets before it -/
def Reaches (o : Opts) (g : G) (w : Views) : Prop :=
  ∃ pre s post, w.v1.sets = pre ++ s :: post ∧ s.name = g.name ∧ ∀ x ∈ pre, Idle o w.v1 x

/-- Executions from `g₀`: between two runs of the safety controller that come to the set, and whose calls succeed, there are at most `R` runs of the machine set
controller that find the set not frozen. `r` counts them. `see` is what is assumed about the moments at which the safety controller runs. -/
inductive Exec (o : Opts) (h : Int) (k : Nat) (see : G → Prop) (R : Nat) (g₀ : G) : Nat → G → Prop
  | start : Exec o h k see R g₀ 0 g₀
  | work {r g f g'} : Exec o h k see R g₀ r g → Work g f g' → f.label = false → r < R → Exec o h k see R g₀ (r + 1) g'
  | frozen {r g f g'} : Exec o h k see R g₀ r g → Work g f g' → f.label = true → Exec o h k see R g₀ r g'
  | drift {r g g'} : Exec o h k see R g₀ r g → Drift g g' → Exec o h k see R g₀ r g'
  | edit {r g g'} : Exec o h k see R g₀ r g → Edit k g g' → Exec o h k see R g₀ r g'
  | check {r g} (ok : Nat → Bool) (w : Views) : Exec o h k see R g₀ r g → see g → Shows o h g w → Exec o h k see R g₀ r (check o ok w g)
  | checked {r g} (w : Views) : Exec o h k see R g₀ r g → see g → Shows o h g w → Reaches o g w → Exec o h k see R g₀ 0 (check o (fun _ => true) w g)

/-- at most `L` machines are missing in the cache -/
def Behind (L : Nat) (g : G) : Prop := g.store.length ≤ g.cache.length + L

/-! ## Lemmas -/

theorem store_push (g : G) (w : List Machine) : ({ g with later := g.later ++ [w] } : G).store = w := by
  unfold G.store
  simp

theorem deliver_store (g : G) (w : List Machine) (rest : List (List Machine)) (h : g.later = w :: rest) :
    ({ g with cache := w, later := rest } : G).store = g.store := by
  unfold G.store
  rw [h]
  cases rest with
  | nil => rfl
  | cons a l => simp [List.getLast?_cons]

theorem after_length (t : String → TermOutcome) (o : Outcome) (new store : List Machine) :
    (Lag.after t o new store).length = store.length + new.length := by
  unfold Lag.after
  simp

theorem work_grows {g g' : G} {f : FSet} (hw : Work g f g') :
    g'.store.length ≤ g.store.length + min 100 f.replicas.toNat ∧ (f.label = true → g'.store.length = g.store.length)
      ∧ g'.objs = g.objs ∧ g'.name = g.name ∧ g'.cache = g.cache ∧ f ∈ g.objs.sets ∧ f.name = g.name := by
  cases hw with
  | run srt createOut t new hf hn hs hnew hnod hlive =>
    have hb := (C02_reconcile_bounds srt createOut (fun l => (hs l).perm) g.cache (msOf f)).1
    have hl : new.length ≤ (manageReplicas srt createOut g.cache (msOf f)).issued := by
      rw [hnew]
      unfold landedCount
      exact Nat.le_trans (List.length_filter_le _ _) (by simp)
    have hr : (msOf f).replicas = f.replicas.toNat := rfl
    refine ⟨?_, ?_, rfl, rfl, rfl, hf, hn⟩
    · rw [store_push, after_length]
      rw [hr] at hb
      omega
    · intro hlab
      have hz := (C04_frozen_never_creates srt createOut g.cache (msOf f) (by unfold msOf; rw [hlab]; rfl) rfl).1
      rw [store_push, after_length]
      omega

/-- a set found unfrozen and at its limit, with nothing to do before it, is frozen -/
theorem freezes (o : Opts) (w : Views) (st : Store) (pre : List FSet) (s : FSet) (post : List FSet) (h : Int) (hv : w.v1.sets = pre ++ s :: post)
    (hpre : ∀ x ∈ pre, Idle o w.v1 x) (hs : s ∈ st.sets) (hl : s.label = false) (hlim : Limit o w.v1 s h) (hb : backing w.v1 s ≥ h)
    (hu : ¬ Asked w.v4 s.name) : ∀ f ∈ (Freeze.run o (fun _ => true) w st).1.sets, f.name = s.name → f.label = true := by
  have hskip : ∀ x ∈ pre, decideSet o w.v1 x = .skip := by
    intro x hx
    obtain ⟨k, hk, h1, h2⟩ := hpre x hx
    unfold decideSet
    rw [limit_iff.1 hk]
    dsimp only
    rw [count_eq]
    rw [if_neg, if_neg]
    · intro hc
      simp only [Bool.and_eq_true, decide_eq_true_eq, Bool.or_eq_true] at hc
      have := h2 hc.2
      omega
    · intro hc
      simp only [Bool.and_eq_true, Bool.not_eq_true', decide_eq_true_eq] at hc
      have := h1 hc.1
      omega
  have hdec : decideSet o w.v1 s = .freeze := by
    unfold decideSet
    rw [limit_iff.1 hlim]
    dsimp only
    rw [count_eq, if_pos]
    simp only [Bool.and_eq_true, Bool.not_eq_true', decide_eq_true_eq]
    exact ⟨hl, hb⟩
  have hcheck : ∀ l, (∀ x ∈ l, decideSet o w.v1 x = .skip) → checkSets o (fun _ => true) w.v1 (l ++ s :: post) st = freezeSet (fun _ => true) w.v1 s st := by
    intro l
    induction l with
    | nil => intro _; show checkSets _ _ _ (s :: post) _ = _; unfold checkSets; rw [hdec]
    | cons x l ih =>
      intro hx
      show checkSets _ _ _ (x :: (l ++ s :: post)) _ = _
      unfold checkSets
      rw [hx x List.mem_cons_self]
      exact ih fun y hy => hx y (List.mem_cons_of_mem _ hy)
  -- all sets of that name carry the label after the first stage
  have hany : ∀ st' : Store, (∃ x ∈ st'.sets, x.name = s.name) → st'.sets.any (fun x => x.name == s.name) = true := by
    intro st' ⟨x, hx, hn⟩
    exact List.any_eq_true.2 ⟨x, hx, by simp [hn]⟩
  have hwrite : ∀ (k : FSet → FSet) (z : Store), (∃ x ∈ z.sets, x.name = s.name) → writeSet (fun _ => true) s.name k z =
      ({ z with sets := z.sets.map (fun x => if x.name == s.name then k x else x), calls := z.calls + 1 }, .done) := by
    intro k z hz
    unfold writeSet
    rw [if_pos (by rw [Bool.true_and]; exact hany z hz)]
  have hdep : ∀ (d : FDep) (z : Store), (freezeDep (fun _ => true) d.name z).1.sets = z.sets := by
    intro d z
    have hw : ∀ (n : String) (k : FDep → FDep) (z : Store), (writeDep (fun _ => true) n k z).1.sets = z.sets := by
      intro n k z
      unfold writeDep
      split <;> rfl
    unfold freezeDep andThen
    split
    · rw [hw, hw]
    · exact hw _ _ _
  have hfirst : ∀ f ∈ (freezeSet (fun _ => true) w.v1 s st).1.sets, f.name = s.name → f.label = true := by
    intro f hf hn
    have hthen : ∀ (z : Store) (k : Store → Store × Res), andThen (z, .done) k = k z := fun _ _ => rfl
    unfold freezeSet at hf
    rw [hwrite _ _ ⟨s, hs, rfl⟩, hthen, hwrite _ _ ⟨{ s with cond := true }, List.mem_map.2 ⟨s, hs, by simp⟩, rfl⟩, hthen] at hf
    generalize hz : ({ sets := _, deps := _, calls := _ } : Store) = z at hf
    have hzs := congrArg Store.sets hz
    have hfz : f ∈ z.sets := by
      cases hr : depOf w.v1 s with
      | none => rw [hr] at hf; exact hf
      | some d => rw [hr] at hf; rw [← hdep d z]; exact hf
    rw [← hzs, List.mem_map] at hfz
    have hf := hfz
    obtain ⟨y, hy, rfl⟩ := hf
    by_cases hyn : (y.name == s.name) = true
    · rw [if_pos hyn]
    · rw [if_neg hyn] at hn
      exact absurd (by simp [hn]) hyn
  unfold Freeze.run
  rw [hv, hcheck pre hskip]
  dsimp only
  have hev : ∀ a b : Store, Ev (fun _ => True) (fun n => Asked w.v4 n) a b → (∀ f ∈ a.sets, f.name = s.name → f.label = true) →
      ∀ f ∈ b.sets, f.name = s.name → f.label = true := by
    intro a b he ha f hf hn
    obtain ⟨i, hi⟩ := List.getElem?_of_mem hf
    have hlen := he.length_eq
    obtain ⟨hlt, hfi⟩ := List.getElem?_eq_some_iff.1 hi
    have hx : a.sets[i]? = some (a.sets[i]'(by omega)) := List.getElem?_eq_getElem _
    have hevo := forall₂_get he i _ _ hx hi
    have := ha _ (List.getElem_mem _) (hevo.name.symm.trans hn)
    rcases hevo.label_off this with h1 | h1
    · exact h1
    · rw [hevo.name.symm.trans hn] at h1
      exact absurd h1 hu
  split
  · exact hfirst
  · refine hev _ _ (((ev_syncDeps _ _ _ _).trans (ev_annDeps _ _ _ _)).trans (ev_annSets _ w.v4 (fun _ h => h) _ _ fun _ h => h)) hfirst

theorem evolves_of_mem {F U : String → Prop} {a b : Store} (he : Ev F U a b) {f : FSet} (hf : f ∈ b.sets) : ∃ x ∈ a.sets, Evolves F U x f := by
  obtain ⟨i, hi⟩ := List.getElem?_of_mem hf
  have hlen := he.length_eq
  obtain ⟨hlt, hfi⟩ := List.getElem?_eq_some_iff.1 hi
  have hx : a.sets[i]? = some (a.sets[i]'(by omega)) := List.getElem?_eq_getElem _
  exact ⟨_, List.getElem_mem _, forall₂_get he i _ _ hx hi⟩

theorem names_eq {F U : String → Prop} {a b : Store} (he : Ev F U a b) : b.sets.map FSet.name = a.sets.map FSet.name := by
  have : ∀ l m : List FSet, List.Forall₂ (Evolves F U) l m → m.map FSet.name = l.map FSet.name := by
    intro l m h
    induction h with
    | nil => rfl
    | cons h _ ih => rw [List.map_cons, List.map_cons, ih, h.name]
  exact this _ _ he

/-! ## The bound -/

/-- what holds all the time -/
structure Inv (h : Int) (L R n₀ k : Nat) (r : Nat) (g : G) : Prop where
  nodup : (g.objs.sets.map FSet.name).Nodup
  size : ∀ f ∈ g.objs.sets, f.name = g.name → f.replicas.toNat ≤ k
  few : r ≤ R
  bound : (g.store.length : Int) ≤ max (n₀ : Int) (h - 1 + L) + R * (min 100 k : Nat)
  unfrozen : ∀ f ∈ g.objs.sets, f.name = g.name → f.label = false → (g.store.length : Int) ≤ max (n₀ : Int) (h - 1 + L) + r * (min 100 k : Nat)

theorem inv_check {o : Opts} {h : Int} {L R n₀ k r : Nat} {g : G} (hi : Inv h L R n₀ k r g) (hd : o.down > 0) (hsee : Behind L g) (ok : Nat → Bool) (w : Views)
    (hw : Shows o h g w) : Inv h L R n₀ k r (check o ok w g)
      ∧ ∀ f ∈ (check o ok w g).objs.sets, f.name = g.name → f.label = false → (∃ x ∈ g.objs.sets, x.name = g.name ∧ x.label = true) →
        (g.store.length : Int) ≤ h - 1 + L := by
  have he : Ev (Over o w.v1) (fun n => Under o w.v1 n ∨ Asked w.v4 n) g.objs (check o ok w g).objs := C21_run o ok w g.objs
  have hlow : ∀ x f : FSet, Evolves (Over o w.v1) (fun n => Under o w.v1 n ∨ Asked w.v4 n) x f → f.name = g.name → f.label = false → x.label = true →
      (g.store.length : Int) ≤ h - 1 + L := by
    intro x f hxf hn hl hxl
    have hxn : x.name = g.name := hxf.name.symm.trans hn
    rcases hxf.label_off hxl with h1 | h1 | h1
    · rw [hl] at h1; cases h1
    · obtain ⟨s, hs, hsn, k', hk, hb⟩ := h1
      rw [hxn] at hsn
      obtain ⟨h', hle, hl'⟩ := hw.limit s hs hsn
      have := limit_unique hk hl'
      subst this
      rw [hw.machines s hs hsn] at hb
      have hb2 : g.store.length ≤ g.cache.length + L := hsee
      omega
    · rw [hxn] at h1; exact absurd h1 hw.unasked
  refine ⟨⟨?_, ?_, hi.few, hi.bound, ?_⟩, ?_⟩
  · rw [names_eq he]; exact hi.nodup
  · intro f hf hn
    obtain ⟨x, hx, hxf⟩ := evolves_of_mem he hf
    rw [hxf.replicas]
    exact hi.size x hx (hxf.name.symm.trans hn)
  · intro f hf hn hl
    obtain ⟨x, hx, hxf⟩ := evolves_of_mem he hf
    show (g.store.length : Int) ≤ _
    cases hxl : x.label with
    | false => exact hi.unfrozen x hx (hxf.name.symm.trans hn) hxl
    | true =>
      have h1 := hlow x f hxf hn hl hxl
      have h2 : (0 : Int) ≤ r * (min 100 k : Nat) := Int.mul_nonneg (by omega) (by omega)
      omega
  · intro f hf hn hl ⟨x, hx, hxn, hxl⟩
    obtain ⟨y, hy, hyf⟩ := evolves_of_mem he hf
    have : y = x := List.inj_on_of_nodup_map hi.nodup hy hx ((hyf.name.symm.trans hn).trans hxn.symm)
    subst this
    exact hlow y f hyf hn hl hxl

theorem inv_exec {o : Opts} {h : Int} {L R k : Nat} {g₀ : G} (hd : o.down > 0) (hn : (g₀.objs.sets.map FSet.name).Nodup)
    (hk : ∀ f ∈ g₀.objs.sets, f.name = g₀.name → f.replicas.toNat ≤ k) {r : Nat} {g : G} (he : Exec o h k (Behind L) R g₀ r g) :
    Inv h L R g₀.store.length k r g := by
  have hmul : ∀ r : Nat, r ≤ R → (r : Int) * (min 100 k : Nat) ≤ R * (min 100 k : Nat) := by
    intro r hr
    exact Int.mul_le_mul_of_nonneg_right (by omega) (by omega)
  induction he with
  | start =>
    have h2 : (0 : Int) ≤ R * (min 100 k : Nat) := Int.mul_nonneg (by omega) (by omega)
    exact ⟨hn, hk, Nat.zero_le _, by omega, fun _ _ _ _ => by omega⟩
  | @work r g f g' _ hw hl hr ih =>
    obtain ⟨h1, _, h3, h4, _, h6, h7⟩ := work_grows hw
    have hsz := ih.size f h6 h7
    have h1 : (g'.store.length : Int) ≤ g.store.length + (min 100 k : Nat) := by omega
    have h8 := ih.unfrozen f h6 h7 hl
    have h9 : ((r + 1 : Nat) : Int) * (min 100 k : Nat) = r * (min 100 k : Nat) + (min 100 k : Nat) := by
      rw [Int.natCast_add, Int.add_mul]; simp
    have h10 := hmul (r + 1) hr
    refine ⟨by rw [h3]; exact ih.nodup, by rw [h3, h4]; exact ih.size, hr, by omega, fun _ _ _ _ => by omega⟩
  | @frozen r g f g' _ hw hl ih =>
    obtain ⟨_, h2, h3, h4, _⟩ := work_grows hw
    have h2 := h2 hl
    refine ⟨by rw [h3]; exact ih.nodup, by rw [h3, h4]; exact ih.size, ih.few, by rw [h2]; exact ih.bound, ?_⟩
    rw [h2, h3, h4]; exact ih.unfrozen
  | @drift r g g' _ hw ih =>
    cases hw with
    | other w hle =>
      refine ⟨ih.nodup, ih.size, ih.few, ?_, ?_⟩
      · rw [store_push]; have := ih.bound; omega
      · intro f hf hfn hl
        rw [store_push]
        have := ih.unfrozen f hf hfn hl
        omega
    | deliver w rest hr =>
      refine ⟨ih.nodup, ih.size, ih.few, ?_, ?_⟩
      · rw [deliver_store g w rest hr]; exact ih.bound
      · rw [deliver_store g w rest hr]; exact ih.unfrozen
  | @edit r g g' _ hw ih =>
    cases hw with
    | edit z hz hs hl =>
      refine ⟨hz, hs, ih.few, ih.bound, ?_⟩
      intro f hf hfn hfl
      obtain ⟨x, hx, hxn, hxl⟩ := hl f hf hfn hfl
      exact ih.unfrozen x hx hxn hxl
  | @check r g ok w _ hsee hw ih => exact (inv_check ih hd hsee ok w hw).1
  | @checked r g w _ hsee hw hre ih =>
    obtain ⟨i1, i2⟩ := inv_check ih hd hsee (fun _ => true) w hw
    refine ⟨i1.nodup, i1.size, Nat.zero_le _, i1.bound, ?_⟩
    intro f hf hfn hl
    show (g.store.length : Int) ≤ _
    obtain ⟨pre, s, post, hv, hsn, hpre⟩ := hre
    have hsv : s ∈ w.v1.sets := by rw [hv]; simp
    have hst := hw.current s hsv hsn
    obtain ⟨h', hle, hlim⟩ := hw.limit s hsv hsn
    have goal : (g.store.length : Int) ≤ h - 1 + L := by
      cases hsl : s.label with
      | true => exact i2 f hf hfn hl ⟨s, hst, hsn, hsl⟩
      | false =>
        by_cases hb : backing w.v1 s ≥ h'
        · have := freezes o w g.objs pre s post h' hv hpre hst hsl hlim hb (by rw [hsn]; exact hw.unasked) f hf (hfn.trans hsn.symm)
          rw [hl] at this; cases this
        · rw [hw.machines s hsv hsn] at hb
          have hb2 : g.store.length ≤ g.cache.length + L := hsee
          omega
    omega

/-- **C125**. Let the set want at most `k` machines and be frozen with at most `h` of them, while its size and that of its deployment are edited. If the safety controller comes to a set after at most `R` runs of the machine set controller, and if the cache is then behind by at most `L` machines, the number of machines
of the set, whatever their state and however outdated the cache was in the runs of the machine set controller, stays below the limit by which the set is frozen, plus `L`, plus `R` times
the machines that one run may create (or it is at most what it was in the beginning plus the latter). -/
theorem C125_excess_is_bounded_partial (o : Opts) (hd : o.down > 0) (h : Int) (L R k : Nat) (g₀ g : G) (r : Nat) (hn : (g₀.objs.sets.map FSet.name).Nodup)
    (hk : ∀ f ∈ g₀.objs.sets, f.name = g₀.name → f.replicas.toNat ≤ k) (he : Exec o h k (Behind L) R g₀ r g) :
    (g.store.length : Int) ≤ max (g₀.store.length : Int) (h - 1 + L) + R * (min 100 k : Nat) :=
  (inv_exec hd hn hk he).bound

/-- A frozen set gets no further machines, from the next run of the machine set controller on. -/
theorem C125_frozen_at_once (g g' : G) (f : FSet) (hw : Work g f g') (hl : f.label = true) : g'.store.length = g.store.length :=
  (work_grows hw).2.1 hl

/-! ## An instance -/

/-- a set that wants one machine, to be frozen with two -/
def exSet : FSet := { name := "s", replicas := 1 }
def exOpts : Opts := { up := 0, down := 1 }
/-- the view of a safety run: this set and so many machines -/
def exView (s : FSet) (n : Nat) : View := { sets := [s], deps := [], machines := List.replicate n { owners := ["s"] } }
def exViews (s : FSet) (n : Nat) : Views := ⟨exView s n, exView s n, exView s n, exView s n⟩

/-- `n` runs on the empty cache, one after the other -/
def runsOn (n : Nat) : G :=
  { name := "s", objs := { sets := [exSet], deps := [] }, cache := [], later := (List.range n).map fun i => (List.range (i + 1)).map Lag.nth }

theorem runsOn_store (n : Nat) : (runsOn n).store = (List.range n).map Lag.nth := by
  unfold G.store runsOn
  dsimp only
  cases n with
  | zero => rfl
  | succ n => simp [List.range_succ]

theorem runsOn_work (n : Nat) : Work (runsOn n) exSet (runsOn (n + 1)) := by
  have h := Work.run (g := runsOn n) exSet (fun l => l.mergeSort (fun a b => !less b a)) (fun _ => ⟨.none, true⟩) (fun _ => ⟨true, true⟩) [Lag.nth n]
    (List.mem_singleton.2 rfl) rfl C03_sort_exists (by
      show 1 = landedCount (fun _ => ⟨.none, true⟩) (manageReplicas (fun l => l.mergeSort (fun a b => !less b a)) (fun _ => ⟨.none, true⟩) [] { replicas := 1 }).issued
      decide +kernel) (by
      rw [runsOn_store]
      have : (List.range n).map Lag.nth ++ [Lag.nth n] = (List.range (n + 1)).map Lag.nth := by rw [List.range_succ]; simp
      rw [this, List.map_map]
      exact List.pairwise_map.2 (List.nodup_range.imp fun h e => h (Lag.nth_inj e))) (by
      intro m hm
      rw [List.mem_singleton.1 hm]
      exact ⟨rfl, rfl⟩)
  have e : ({ runsOn n with later := (runsOn n).later ++ [Lag.after (fun _ => ⟨true, true⟩)
      (manageReplicas (fun l => l.mergeSort (fun a b => !less b a)) (fun _ => ⟨.none, true⟩) (runsOn n).cache (msOf exSet)) [Lag.nth n] (runsOn n).store] } : G)
      = runsOn (n + 1) := by
    have hs : Lag.struck (manageReplicas (fun l => l.mergeSort (fun a b => !less b a)) (fun _ => ⟨.none, true⟩) (runsOn n).cache (msOf exSet)) = [] := by
      show Lag.struck (manageReplicas (fun l => l.mergeSort (fun a b => !less b a)) (fun _ => ⟨.none, true⟩) [] { replicas := 1 }) = []
      decide +kernel
    have ha : Lag.after (fun _ => ⟨true, true⟩) (manageReplicas (fun l => l.mergeSort (fun a b => !less b a)) (fun _ => ⟨.none, true⟩) (runsOn n).cache (msOf exSet))
        [Lag.nth n] (runsOn n).store = (List.range (n + 1)).map Lag.nth := by
      unfold Lag.after
      rw [hs, runsOn_store, List.range_succ]
      simp
    rw [ha]
    unfold runsOn
    simp [List.range_succ]
  rw [e] at h
  exact h

theorem shows_ex (s : FSet) (g : G) (hs : g.objs.sets = [s]) (hn : s.name = "s") (hr : s.replicas ≤ 1) (ht : s.tmpl = []) (ha : s.ann = false)
    (n : Nat) (hc : g.cache.length = n) : Shows exOpts 2 g (exViews s n) where
  current := by
    intro x hx _
    rw [hs]; exact hx
  limit := by
    intro x hx _
    rw [List.mem_singleton.1 hx]
    have := Limit.alone (o := exOpts) (v := exView s n) (s := s) rfl
    exact ⟨_, by show 2 * s.replicas + 0 ≤ 2; omega, this⟩
  machines := by
    intro x hx _
    rw [List.mem_singleton.1 hx, hc]
    unfold backing
    rw [ht, hn]
    show ((((List.replicate n ({ owners := ["s"] } : FMachine)).filter fun _ => true).flatMap (·.owners)).count "s" : Int) = n
    rw [List.filter_eq_self.2 (fun _ _ => rfl)]
    congr 1
    clear hc hx
    induction n with
    | zero => rfl
    | succ n ih =>
      rw [List.replicate_succ, List.flatMap_cons, List.count_append, ih]
      show 1 + n = n + 1
      omega
  unasked := by
    rintro ⟨x, hx, _, hxa⟩
    rw [List.mem_singleton.1 hx, ha] at hxa
    cases hxa

/-- **C125 is false of the code without a bound on the lag**: the safety controller counts machines in the cache that misled the machine set controller. For every number there is an
execution without failing calls, with a run of the safety controller that comes to the set after every single run of the machine set controller, that leads to so many machines of a
set that wants one and is to be frozen with two. -/
theorem C125_same_cache_false : ∀ n, ∃ r g, Exec exOpts 2 1 (fun _ => True) 1 (runsOn 0) r g ∧ g.store.length = n := by
  intro n
  have hc : ∀ n, check exOpts (fun _ => true) (exViews exSet 0) (runsOn n) = runsOn n := by
    intro n
    have : (Freeze.run exOpts (fun _ => true) (exViews exSet 0) { sets := [exSet], deps := [] }).1 = { sets := [exSet], deps := [] } := rfl
    show { runsOn n with objs := (Freeze.run exOpts (fun _ => true) (exViews exSet 0) { sets := [exSet], deps := [] }).1 } = runsOn n
    rw [this]
    rfl
  have main : ∀ n, Exec exOpts 2 1 (fun _ => True) 1 (runsOn 0) 0 (runsOn n) := by
    intro n
    induction n with
    | zero => exact .start
    | succ n ih =>
      have h1 := Exec.work ih (runsOn_work n) rfl Nat.zero_lt_one
      have h2 := Exec.checked (exViews exSet 0) h1 trivial (shows_ex exSet (runsOn (n + 1)) rfl rfl (by decide) rfl rfl 0 rfl)
        ⟨[], exSet, [], rfl, rfl, fun _ h => nomatch h⟩
      rw [hc] at h2
      exact h2
  refine ⟨0, runsOn n, main n, ?_⟩
  rw [runsOn_store]
  simp

/-- two runs on an outdated cache make two machines instead of one; when the watch has delivered them, the next run of the safety controller freezes the set -/
example : ∃ g, Exec exOpts 2 1 (Behind 0) 2 (runsOn 0) 0 g ∧ g.store.length = 2 ∧ ∀ f ∈ g.objs.sets, f.label = true := by
  have h1 := Exec.work (Exec.work (Exec.start (o := exOpts) (h := 2) (k := 1) (see := Behind 0) (R := 2) (g₀ := runsOn 0)) (runsOn_work 0) rfl (by decide)) (runsOn_work 1) rfl (by decide)
  have h2 := Exec.drift h1 (Drift.deliver _ _ rfl)
  have h3 := Exec.drift h2 (Drift.deliver _ _ rfl)
  have h4 := Exec.checked (exViews exSet 2) h3 (by unfold Behind; decide +kernel) (shows_ex exSet _ rfl rfl (by decide) rfl rfl 2 rfl) ⟨[], exSet, [], rfl, rfl, fun _ h => nomatch h⟩
  exact ⟨_, h4, by decide +kernel, by decide +kernel⟩

/-- the size of the set is taken back to none after a run on an outdated cache; with that its limit sinks, and the next run of the safety controller freezes the set -/
example : ∃ g, Exec exOpts 2 1 (Behind 1) 1 (runsOn 0) 0 g ∧ g.store.length = 1 ∧ ∀ f ∈ g.objs.sets, f.label = true ∧ f.replicas = 0 := by
  have h1 := Exec.work (Exec.start (o := exOpts) (h := 2) (k := 1) (see := Behind 1) (R := 1) (g₀ := runsOn 0)) (runsOn_work 0) rfl (by decide)
  have h2 := Exec.edit h1 (Edit.edit { sets := [{ exSet with replicas := 0 }], deps := [] } (by decide +kernel) (by decide +kernel)
    fun _ _ _ _ => ⟨exSet, List.mem_singleton.2 rfl, rfl, rfl⟩)
  have h3 := Exec.checked (exViews { exSet with replicas := 0 } 0) h2 (by unfold Behind; decide +kernel) (shows_ex { exSet with replicas := 0 } _ rfl rfl (by decide) rfl rfl 0 rfl)
    ⟨[], { exSet with replicas := 0 }, [], rfl, rfl, fun _ h => nomatch h⟩
  exact ⟨_, h3, by decide +kernel, by decide +kernel⟩

/-- the set with number `i` -/
def nthSet (i : Nat) : FSet := { name := (Lag.nth i).name, replicas := 1 }
/-- `n` sets of one deployment that wants one machine, with one machine each -/
def spread (n : Nat) : View :=
  { sets := (List.range n).map nthSet, deps := [{ name := "d", replicas := 1 }], machines := (List.range n).map fun i => { owners := [(Lag.nth i).name] }
    owner := fun _ => some "d", children := fun _ => (List.range n).map fun i => (Lag.nth i).name }

/-- **The option speaks of "any machineDeployment/machineSet"**, but the machines of a deployment are not added up: for every number there are a deployment that wants one machine
(and may have two and the permitted excess of two more) and so many machines of it, each belonging to another one of its sets, with which a run of the safety controller freezes nothing. -/
theorem C125_not_added_up_false (n : Nat) :
    let v := spread n
    let st : Store := { sets := v.sets, deps := v.deps }
    v.machines.length = n ∧ (∀ m ∈ v.machines, ∃ s ∈ v.sets, m.owners = [s.name] ∧ depOf v s = some { name := "d", replicas := 1 }) ∧
      Freeze.run ⟨2, 1⟩ (fun _ => true) ⟨v, v, v, v⟩ st = (st, .done) := by
  intro v st
  have hdep : ∀ s, depOf v s = some { name := "d", replicas := 1 } := fun _ => rfl
  refine ⟨by simp [v, spread], ?_, ?_⟩
  · intro m hm
    obtain ⟨i, hi, rfl⟩ := List.mem_map.1 hm
    exact ⟨nthSet i, List.mem_map.2 ⟨i, hi, rfl⟩, rfl, hdep _⟩
  · have hcount : ∀ i, count v (nthSet i) ≤ 1 := by
      intro i
      rw [count_eq]
      unfold backing
      have e1 : (v.machines.filter fun m => (nthSet i).tmpl.all fun e => List.lookup e.1 m.labels == some e.2) = v.machines :=
        List.filter_eq_self.2 fun _ _ => rfl
      rw [e1]
      have e2 : v.machines.flatMap (·.owners) = (List.range n).map fun i => (Lag.nth i).name := by
        show (((List.range n).map fun i => ({ owners := [(Lag.nth i).name] } : FMachine)).flatMap (·.owners)) = _
        generalize List.range n = l
        induction l with
        | nil => rfl
        | cons a l ih => rw [List.map_cons, List.flatMap_cons, ih]; rfl
      rw [e2]
      have hnd : ((List.range n).map fun i => (Lag.nth i).name).Nodup := List.pairwise_map.2 (List.nodup_range.imp fun h e => h (Lag.nth_inj e))
      have := List.nodup_iff_count_le_one.1 hnd (nthSet i).name
      omega
    have hskip : ∀ i, decideSet ⟨2, 1⟩ v (nthSet i) = .skip := by
      intro i
      have hh : higher ⟨2, 1⟩ v (nthSet i) = .ok 4 := by
        unfold higher
        rw [hdep]
        rfl
      unfold decideSet
      rw [hh]
      dsimp only
      have := hcount i
      rw [if_neg, if_neg]
      · intro hc
        simp only [Bool.and_eq_true] at hc
        exact absurd hc.2 (by show ¬ (false || false) = true; decide)
      · intro hc
        simp only [Bool.and_eq_true, decide_eq_true_eq] at hc
        omega
    have h1 : ∀ (l : List Nat) (z : Store), checkSets ⟨2, 1⟩ (fun _ => true) v (l.map nthSet) z = (z, .done) := by
      intro l z
      induction l with
      | nil => rfl
      | cons a l ih =>
        rw [List.map_cons]
        unfold checkSets
        rw [hskip]
        exact ih
    have hfz : hasFrozen v { name := "d", replicas := 1 } = false := by
      unfold hasFrozen
      rw [List.any_eq_false]
      intro x _ hc
      obtain ⟨s, hs, h2⟩ := List.any_eq_true.1 hc
      obtain ⟨i, _, rfl⟩ := List.mem_map.1 hs
      rw [Bool.and_eq_true] at h2
      exact absurd h2.2 (by show ¬ (false || false) = true; decide)
    have h2 : syncDeps (fun _ => true) v v.deps st = (st, .done) := by
      show syncDeps (fun _ => true) v [{ name := "d", replicas := 1 }] st = (st, .done)
      unfold syncDeps
      rw [hfz]
      rfl
    have h4 : ∀ (l : List Nat) (z : Store), unfreezeAnnotatedSets (fun _ => true) (l.map nthSet) z = (z, .done) := by
      intro l z
      induction l with
      | nil => rfl
      | cons a l ih => rw [List.map_cons]; exact ih
    unfold Freeze.run
    dsimp only
    have e1 : checkSets ⟨2, 1⟩ (fun _ => true) v v.sets st = (st, .done) := h1 _ _
    rw [e1, if_neg (fun h => nomatch h), h2]
    exact h4 _ _

end MCM.Guard
