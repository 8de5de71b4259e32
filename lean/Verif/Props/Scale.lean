import Verif.Model.Scale
import Verif.Lemmas.Rolling
import Verif.Lemmas.Atoi
/-!
# C13 – scaling a deployment with several active machine sets;  C55 – a scaling request is handled once
-/
namespace MCM.Scale
open MCM MCM.Rolling

/-! ## Independent specification -/

/-- `after` are the machine sets `before`, in some order, with sizes related by `P old new` -/
def Resized (P : Int → Int → Prop) (before after : List MSet) : Prop :=
  (after.map (·.name)).Perm (before.map (·.name)) ∧ ∀ s' ∈ after, ∃ s ∈ before, s.name = s'.name ∧ P s.spec s'.spec

/-- the deployment-wide limit recorded on the set by the previous scaling is `m` -/
def RecordedLimit (s : MSet) (m : Int) : Prop := ∃ t, s.maxR = some t ∧ atoi t = some m

/-- at least two machine sets want machines -/
def SeveralActive (l : List MSet) : Prop := 2 ≤ (l.filter fun s => s.spec > 0).length

def Env.Sorts (env : Env) : Prop := (∀ l, (env.srtNewest l).Perm l) ∧ ∀ l, (env.srtSize l).Perm l
def Env.AllOk (env : Env) : Prop := ∀ s, env.ok s = true

/-! ## Lemmas -/

@[simp] theorem total_nil : total [] = 0 := rfl
@[simp] theorem total_cons (s l) : total (s :: l) = s.spec + total l := by simp [total]
@[simp] theorem total_append (a b) : total (a ++ b) = total a + total b := by simp [total]
theorem total_perm {a b : List MSet} (h : a.Perm b) : total a = total b := sum_perm (h.map _)

theorem split_perm (l : List MSet) (p : MSet → Bool) : (l.filter (fun s => !p s) ++ l.filter p).Perm l := by
  have := List.filter_append_perm p l
  exact (List.perm_append_comm).trans this

theorem active_total (l : List MSet) (h : ∀ s ∈ l, 0 ≤ s.spec) : total (active l) = total l ∧ total (l.filter fun s => !(s.spec > 0)) = 0 := by
  unfold active
  induction l with
  | nil => simp
  | cons s l ih =>
    have h1 := h s (by simp)
    have h2 := ih (fun x hx => h x (by simp [hx]))
    by_cases hs : s.spec > 0
    · simp [hs] at h2 ⊢; exact h2
    · simp [hs] at h2 ⊢; omega

theorem rd_bounds (x y s : Int) (hy : 0 < y) (hx : 0 ≤ x) (h : x ≤ s * y) (junk) : 0 ≤ roundDiv junk x y ∧ roundDiv junk x y ≤ s := by
  unfold roundDiv
  simp only [show y ≠ 0 by omega, if_false, hy, if_true, hx, ge_iff_le]
  constructor
  · exact Int.ediv_nonneg (by omega) (by omega)
  · have : (2 * x + y) / (2 * y) < s + 1 := by
      apply Int.ediv_lt_of_lt_mul (by omega)
      have : (s + 1) * (2 * y) = 2 * (s * y) + 2 * y := by
        rw [Int.add_mul, Int.one_mul, Int.mul_left_comm]
      omega
    omega

theorem proportional_sum (d : Dep) (sr junk toAdd : Int) (hneg : toAdd < 0) (l : List MSet) : ∀ added, toAdd ≤ added →
    (proportional d sr junk toAdd l added).1.map (·.1) = l
    ∧ toAdd ≤ (proportional d sr junk toAdd l added).2
    ∧ ((proportional d sr junk toAdd l added).1.map (·.2)).sum = total l + ((proportional d sr junk toAdd l added).2 - added) := by
  induction l with
  | nil => intro added h; simp [proportional, h]
  | cons s rest ih =>
    intro added h
    unfold proportional
    simp only [show toAdd ≠ 0 by omega, ne_eq, not_false_eq_true, if_true]
    have hp : toAdd ≤ added + proportion d sr junk s toAdd added := by
      unfold proportion; split
      · omega
      · simp only [show ¬ toAdd > 0 by omega, if_false]; omega
    obtain ⟨i1, i2, i3⟩ := ih _ hp
    refine ⟨by simp [i1], i2, ?_⟩
    simp [i3]; omega

theorem proportional_bounds (d : Dep) (sr junk toAdd : Int) (hneg : toAdd < 0) (hr : 0 ≤ d.replicas + maxSurge d) (l : List MSet) : ∀ added,
    toAdd ≤ added → added ≤ 0 →
    (∀ s ∈ l, 0 < s.spec) →
    (d.replicas ≠ 0 → ∀ s ∈ l, ∃ m, RecordedLimit s m ∧ 0 < m ∧ d.replicas + maxSurge d ≤ m) →
    ∀ e ∈ (proportional d sr junk toAdd l added).1, 0 ≤ e.2 ∧ e.2 ≤ e.1.spec := by
  induction l with
  | nil => intro added h _ _ _; simp [proportional]
  | cons s rest ih =>
    intro added h hle hpos hlim
    have hs := hpos s (by simp)
    have hf : -s.spec ≤ fraction d sr junk s ∧ fraction d sr junk s ≤ 0 := by
      unfold fraction
      by_cases hz : d.replicas = 0
      · simp [hz]; omega
      · simp only [hz, if_false]
        obtain ⟨m, ⟨t, ht, hm⟩, hm0, hmr⟩ := hlim hz s (by simp)
        simp only [ht, Option.bind_some, hm, Option.getD_some]
        have := rd_bounds (s.spec * (d.replicas + maxSurge d)) m s.spec hm0 (Int.mul_nonneg (by omega) hr)
          (Int.mul_le_mul_of_nonneg_left hmr (by omega)) junk
        omega
    have hp : toAdd ≤ added + proportion d sr junk s toAdd added ∧ proportion d sr junk s toAdd added ≤ 0
        ∧ -s.spec ≤ proportion d sr junk s toAdd added := by
      unfold proportion; split
      · omega
      · simp only [show ¬ toAdd > 0 by omega, if_false]; omega
    unfold proportional
    simp only [show toAdd ≠ 0 by omega, ne_eq, not_false_eq_true, if_true]
    intro e he
    rcases List.mem_cons.1 he with rfl | he
    · simp only; omega
    · exact ih _ hp.1 (by omega) (fun x hx => hpos x (by simp [hx])) (fun hz x hx => hlim hz x (by simp [hx])) e he

theorem scaleSet_name (d ok s n) : (scaleSet d ok s n).1.name = s.name := by
  unfold scaleSet; split <;> (try split) <;> rfl

theorem scaleSet_ok (d s n) : (scaleSet d true s n).1.spec = n ∧ (scaleSet d true s n).2 = false
    ∧ (scaleSet d true s n).1.desired = some (desiredText d) ∧ (scaleSet d true s n).1.avail = s.avail := by
  unfold scaleSet; split
  · simp
  · rename_i h; simp at h; simp [h]

theorem scaleSet_spec (d ok s n) : (scaleSet d ok s n).1.spec = n ∨ (scaleSet d ok s n).1 = s := by
  unfold scaleSet; split
  · split <;> simp
  · right; rfl

theorem writeAll_spec (d : Dep) (ok : MSet → Bool) (l : List (MSet × Int)) :
    (writeAll d ok l).1.map (·.name) = l.map (fun e => e.1.name)
    ∧ (∀ s' ∈ (writeAll d ok l).1, ∃ e ∈ l, e.1.name = s'.name ∧ (s'.spec = e.2 ∨ s' = e.1)) := by
  induction l with
  | nil => simp [writeAll]
  | cons e rest ih =>
    obtain ⟨s, n⟩ := e
    unfold writeAll
    dsimp only
    have h0 := scaleSet_name d (ok s) s n
    have h1 := scaleSet_spec d (ok s) s n
    split
    · refine ⟨by simp [h0], ?_⟩
      intro s' hs'
      rcases List.mem_cons.1 hs' with rfl | hs'
      · exact ⟨(s, n), by simp, h0.symm, h1⟩
      · simp only [List.mem_map] at hs'
        obtain ⟨e, he, rfl⟩ := hs'
        exact ⟨e, by simp [he], rfl, Or.inr rfl⟩
    · refine ⟨by simp [h0, ih.1], ?_⟩
      intro s' hs'
      rcases List.mem_cons.1 hs' with rfl | hs'
      · exact ⟨(s, n), by simp, h0.symm, h1⟩
      · obtain ⟨e, he, h⟩ := ih.2 s' hs'
        exact ⟨e, by simp [he], h⟩

theorem writeAll_ok (d : Dep) (ok : MSet → Bool) (hok : ∀ s, ok s = true) (l : List (MSet × Int)) :
    (writeAll d ok l).1.map (·.spec) = l.map (·.2) ∧ (writeAll d ok l).2 = false
    ∧ (∀ s' ∈ (writeAll d ok l).1, s'.desired = some (desiredText d)) := by
  induction l with
  | nil => simp [writeAll]
  | cons e rest ih =>
    obtain ⟨s, n⟩ := e
    unfold writeAll
    dsimp only
    have h1 := scaleSet_ok d s n
    rw [hok s, h1.2.1]
    simp only [Bool.false_eq_true, if_false]
    refine ⟨by simp [h1.1, ih.1], ih.2.1, ?_⟩
    intro s' hs'
    rcases List.mem_cons.1 hs' with rfl | hs'
    · exact h1.2.2.1
    · exact ih.2.2 s' hs'

theorem addLeftover_fst (a b l) : (addLeftover a b l).map (fun e => e.1) = l.map (fun e => e.1) := by
  cases l with
  | nil => rfl
  | cons e l => obtain ⟨s, n⟩ := e; rw [addLeftover]; split <;> rfl

theorem addLeftover_same (a l) (h : ∀ e ∈ l, 0 ≤ e.2) : addLeftover a a l = l := by
  cases l with
  | nil => rfl
  | cons e l =>
    obtain ⟨s, n⟩ := e
    have := h (s, n) (by simp)
    simp only at this
    simp [addLeftover]; omega

theorem find_none (env : Env) (hs : env.Sorts) (old new) (h : SeveralActive (old ++ new.toList)) : findActiveOrLatest env old new = none := by
  unfold findActiveOrLatest
  have hl : (active (env.srtNewest old ++ new.toList)).length = (active (old ++ new.toList)).length :=
    (((hs.1 old).append_right _).filter _).length_eq
  unfold SeveralActive at h
  change 2 ≤ (active (old ++ new.toList)).length at h
  rw [← hl] at h
  split
  · rename_i h1; rw [h1] at h; simp at h
  · rename_i h1; rw [h1] at h; simp at h
  · rfl

theorem resized_inactive (P : Int → Int → Prop) (hP : ∀ x, 0 ≤ x → P x x) (all act' : List MSet) (hnn : ∀ s ∈ all, 0 ≤ s.spec)
    (h : Resized P (active all) act') : Resized P all ((all.filter fun s => !(s.spec > 0)) ++ act') := by
  refine ⟨?_, ?_⟩
  · rw [List.map_append]
    refine (List.Perm.append_left _ h.1).trans ?_
    rw [← List.map_append]
    exact (split_perm all (fun s => decide (s.spec > 0))).map _
  · intro s' hs'
    rcases List.mem_append.1 hs' with hs' | hs'
    · have := (List.mem_filter.1 hs').1
      exact ⟨s', this, rfl, hP _ (hnn _ this)⟩
    · obtain ⟨s, h1, h2⟩ := h.2 s' hs'
      exact ⟨s, (List.mem_filter.1 h1).1, h2⟩

/-- what the deployment may have in all: with `maxSurge` more than wanted, or nothing -/
def Allowed (d : Dep) : Int := if 0 < d.replicas then d.replicas + maxSurge d else 0

theorem allowed_eq (d : Dep) : Allowed d = allowedSize d := rfl

/-! ## C13: scale-in -/

theorem scale_down_eq (d : Dep) (hd : d.strategy = .rolling) (env : Env) (hs : env.Sorts) (old new)
    (hact : SeveralActive (old ++ new.toList)) (hsat : isSaturated d new = false)
    (hdown : allowedSize d < total (active (old ++ new.toList))) :
    scale d env old new =
      (((old ++ new.toList).filter fun s => !(s.spec > 0)) ++
        (writeAll d env.ok (addLeftover (allowedSize d - total (active (old ++ new.toList)))
          (proportional d env.statusReplicas env.junk (allowedSize d - total (active (old ++ new.toList))) (env.srtSize (active (old ++ new.toList))) 0).2
          (proportional d env.statusReplicas env.junk (allowedSize d - total (active (old ++ new.toList))) (env.srtSize (active (old ++ new.toList))) 0).1)).1,
        (writeAll d env.ok (addLeftover (allowedSize d - total (active (old ++ new.toList)))
          (proportional d env.statusReplicas env.junk (allowedSize d - total (active (old ++ new.toList))) (env.srtSize (active (old ++ new.toList))) 0).2
          (proportional d env.statusReplicas env.junk (allowedSize d - total (active (old ++ new.toList))) (env.srtSize (active (old ++ new.toList))) 0).1)).2) := by
  unfold scale
  simp only [find_none env hs old new hact, hsat, Bool.false_eq_true, if_false, hd, if_true]
  rw [if_neg (by omega)]

/-- **C13** (partial): scaling in. If more machines are desired than the new limit allows and every active set carries a
recorded limit at least as large as the new one (what the previous scaling wrote, if the deployment shrank since), then
– for all API outcomes and sort orders – no set grows and none becomes negative. -/
theorem C13_scale_in_bounds_partial (d : Dep) (hd : d.strategy = .rolling) (hr : 0 ≤ d.replicas) (hsur : 0 ≤ maxSurge d) (env : Env) (hs : env.Sorts)
    (old : List MSet) (new : Option MSet) (hnn : ∀ s ∈ old ++ new.toList, 0 ≤ s.spec)
    (hact : SeveralActive (old ++ new.toList)) (hsat : isSaturated d new = false)
    (hdown : Allowed d < total (old ++ new.toList))
    (hlim : d.replicas ≠ 0 → ∀ s ∈ old ++ new.toList, 0 < s.spec → ∃ m, RecordedLimit s m ∧ d.replicas + maxSurge d ≤ m) :
    Resized (fun before after => 0 ≤ after ∧ after ≤ before) (old ++ new.toList) (scale d env old new).1 := by
  simp only [allowed_eq] at *
  generalize hall : old ++ new.toList = all at *
  have hat := (active_total all hnn).1
  have e := scale_down_eq d hd env hs old new (by rw [hall]; exact hact) hsat (by rw [hall]; omega)
  rw [e]
  rw [hall]
  apply resized_inactive _ (fun x hx => ⟨hx, Int.le_refl _⟩) all _ hnn
  have hpa := hs.2 (active all)
  have hneg : allowedSize d - total (active all) < 0 := by omega
  have hposa : ∀ s ∈ env.srtSize (active all), 0 < s.spec := by
    intro s h; have := (List.mem_filter.1 (hpa.mem_iff.1 h)).2; simpa using this
  have hsum := proportional_sum d env.statusReplicas env.junk _ hneg (env.srtSize (active all)) 0 (by omega)
  have hb := proportional_bounds d env.statusReplicas env.junk _ hneg (by omega) (env.srtSize (active all)) 0 (by omega) (by omega) hposa (by
    intro hz s h
    have h1 := (List.mem_filter.1 (hpa.mem_iff.1 h)).1
    obtain ⟨m, hm, h2⟩ := hlim hz s h1 (hposa s h)
    exact ⟨m, hm, by omega, h2⟩)
  generalize proportional d env.statusReplicas env.junk (allowedSize d - total (active all)) (env.srtSize (active all)) 0 = p at *
  generalize allowedSize d - total (active all) = toAdd at *
  obtain ⟨q1, q2, q3⟩ := hsum
  -- sizes after the leftover
  have hb2 : ∀ e ∈ addLeftover toAdd p.2 p.1, 0 ≤ e.2 ∧ e.2 ≤ e.1.spec := by
    intro e he
    cases hp : p.1 with
    | nil => rw [hp] at he; simp [addLeftover] at he
    | cons x rest =>
      rw [hp] at he hb
      obtain ⟨s, n⟩ := x
      have hx := hb (s, n) (by simp)
      have : addLeftover toAdd p.2 ((s, n) :: rest) = (s, if n + (toAdd - p.2) < 0 then 0 else n + (toAdd - p.2)) :: rest := by
        simp [addLeftover]; omega
      rw [this] at he
      rcases List.mem_cons.1 he with rfl | he
      · simp only at hx ⊢; split <;> omega
      · exact hb e (by simp [he])
  have hw := writeAll_spec d env.ok (addLeftover toAdd p.2 p.1)
  have hfst := addLeftover_fst toAdd p.2 p.1
  refine ⟨?_, ?_⟩
  · rw [hw.1]
    have : (addLeftover toAdd p.2 p.1).map (fun e => e.1.name) = ((addLeftover toAdd p.2 p.1).map (fun e => e.1)).map (·.name) := by simp
    rw [this, hfst, q1]
    exact hpa.map _
  · intro s' hs'
    obtain ⟨e, he, h1, h2⟩ := hw.2 s' hs'
    have hm : e.1 ∈ env.srtSize (active all) := by
      rw [← q1, ← hfst]; exact List.mem_map.2 ⟨e, he, rfl⟩
    refine ⟨e.1, hpa.mem_iff.1 hm, h1, ?_⟩
    have := hb2 e he
    rcases h2 with h2 | h2
    · rw [h2]; exact this
    · rw [h2]; have := hposa e.1 hm; omega

/-- **C13** (partial): the total after scaling in, when the calls succeed. It never falls below the allowed size – whatever
limits are recorded – and it equals the allowed size unless the leftover emptied the largest set. -/
theorem C13_scale_in_total_partial (d : Dep) (hd : d.strategy = .rolling) (env : Env) (hs : env.Sorts) (hok : env.AllOk)
    (old : List MSet) (new : Option MSet) (hnn : ∀ s ∈ old ++ new.toList, 0 ≤ s.spec)
    (hact : SeveralActive (old ++ new.toList)) (hsat : isSaturated d new = false)
    (hdown : Allowed d < total (old ++ new.toList)) :
    let r := (scale d env old new).1
    Allowed d ≤ total r ∧ (total r = Allowed d ∨
      ∃ s largest, (env.srtSize (active (old ++ new.toList))).head? = some largest ∧ s ∈ r ∧ s.name = largest.name ∧ s.spec = 0) := by
  intro r
  simp only [allowed_eq] at *
  generalize hall : old ++ new.toList = all at *
  obtain ⟨hat, hin⟩ := active_total all hnn
  have e := scale_down_eq d hd env hs old new (by rw [hall]; exact hact) hsat (by rw [hall]; omega)
  simp only [r, e, hall]
  have hpa := hs.2 (active all)
  have hpt := total_perm hpa
  have hneg : allowedSize d - total (active all) < 0 := by omega
  have hsum := proportional_sum d env.statusReplicas env.junk _ hneg (env.srtSize (active all)) 0 (by omega)
  have hl : 2 ≤ (env.srtSize (active all)).length := by rw [hpa.length_eq]; exact hact
  generalize proportional d env.statusReplicas env.junk (allowedSize d - total (active all)) (env.srtSize (active all)) 0 = p at *
  generalize hT : allowedSize d - total (active all) = toAdd at *
  obtain ⟨q1, q2, q3⟩ := hsum
  have hw := writeAll_ok d env.ok hok (addLeftover toAdd p.2 p.1)
  have hfst := addLeftover_fst toAdd p.2 p.1
  have htot : total (writeAll d env.ok (addLeftover toAdd p.2 p.1)).1 = ((addLeftover toAdd p.2 p.1).map (·.2)).sum := by
    unfold total; rw [hw.1]
  rw [total_append, hin, htot]
  cases hp : p.1 with
  | nil => rw [hp] at q1; rw [← q1] at hl; simp at hl
  | cons x rest =>
    obtain ⟨s, n⟩ := x
    have ha : addLeftover toAdd p.2 ((s, n) :: rest) = (s, if n + (toAdd - p.2) < 0 then 0 else n + (toAdd - p.2)) :: rest := by
      simp [addLeftover]; omega
    rw [hp] at q1 q3 hw
    rw [ha] at hw ⊢
    simp at q3
    by_cases hc : n + (toAdd - p.2) < 0
    · refine ⟨by simp [hc]; omega, Or.inr ?_⟩
      have hws := writeAll_spec d env.ok ((s, if n + (toAdd - p.2) < 0 then 0 else n + (toAdd - p.2)) :: rest)
      cases hwl : (writeAll d env.ok ((s, if n + (toAdd - p.2) < 0 then 0 else n + (toAdd - p.2)) :: rest)).1 with
      | nil => rw [hwl] at hw; simp at hw
      | cons s' l' =>
        rw [hwl] at hw hws
        refine ⟨s', s, ?_, by simp, ?_, ?_⟩
        · rw [← q1]; rfl
        · have := hws.1; simp at this; exact this.1
        · have := hw.1; simp [hc] at this; exact this.1
    · refine ⟨by simp [hc]; omega, Or.inl ?_⟩
      simp [hc]; omega

/-- scaling to zero replicas empties every active set, whatever is recorded on them -/
theorem C13_scale_to_zero (d : Dep) (hd : d.strategy = .rolling) (hz : d.replicas = 0) (hsur : 0 ≤ maxSurge d) (env : Env) (hs : env.Sorts) (hok : env.AllOk)
    (old : List MSet) (new : Option MSet) (hnn : ∀ s ∈ old ++ new.toList, 0 ≤ s.spec)
    (hact : SeveralActive (old ++ new.toList)) (hsat : isSaturated d new = false) :
    ∀ s ∈ (scale d env old new).1, s.spec = 0 := by
  have hposT : 0 < total (old ++ new.toList) := by
    have h1 := (active_total _ hnn).1
    rw [← h1]
    unfold SeveralActive at hact
    change 2 ≤ (active (old ++ new.toList)).length at hact
    have h2 : ∀ s ∈ active (old ++ new.toList), 0 < s.spec := fun s h => by simpa using (List.mem_filter.1 h).2
    revert hact h2
    generalize active (old ++ new.toList) = l
    intro hact h2
    have : ∀ l : List MSet, (∀ s ∈ l, 0 < s.spec) → (l.length : Int) ≤ total l := by
      intro l
      induction l with
      | nil => simp
      | cons s l ih =>
        intro h; have := h s (by simp); have := ih (fun x hx => h x (by simp [hx])); simp; omega
    have := this l h2
    omega
  have ha0 : allowedSize d = 0 := by simp [allowedSize, hz]
  have hb := C13_scale_in_bounds_partial d hd (by omega) hsur env hs old new hnn hact hsat (by rw [allowed_eq]; omega) (fun h => absurd hz h)
  have ht := (C13_scale_in_total_partial d hd env hs hok old new hnn hact hsat (by rw [allowed_eq]; omega))
  -- every proportion is the full size
  obtain ⟨hat, hin⟩ := active_total (old ++ new.toList) hnn
  have e := scale_down_eq d hd env hs old new hact hsat (by omega)
  have hprop : ∀ (l : List MSet) added toAdd sr junk, toAdd < 0 → toAdd = added - total l → (∀ s ∈ l, 0 < s.spec) →
      ((proportional d sr junk toAdd l added).1.map (·.2)).sum = 0 ∧ (proportional d sr junk toAdd l added).2 = toAdd := by
    intro l
    induction l with
    | nil => intro added toAdd sr junk _ h _; simp at h; simp [proportional, h]
    | cons s rest ih =>
      intro added toAdd sr junk hn h hp
      have hs := hp s (by simp)
      have hrp : 0 ≤ total rest := by
        have : ∀ l : List MSet, (∀ s ∈ l, 0 < s.spec) → 0 ≤ total l := by
          intro l
          induction l with
          | nil => simp
          | cons s l ih => intro h; have := h s (by simp); have := ih (fun x hx => h x (by simp [hx])); simp; omega
        exact this rest (fun x hx => hp x (by simp [hx]))
      simp at h
      have : proportion d sr junk s toAdd added = -s.spec := by
        unfold proportion
        rw [if_neg (by omega)]
        simp only [show ¬ toAdd > 0 by omega, if_false, fraction, hz, if_true]
        omega
      unfold proportional
      simp only [show toAdd ≠ 0 by omega, ne_eq, not_false_eq_true, if_true, this]
      have i := ih (added + -s.spec) toAdd sr junk hn (by omega) (fun x hx => hp x (by simp [hx]))
      exact ⟨by simp [i.1]; omega, i.2⟩
  have hfin : total (scale d env old new).1 = 0 := by
    rw [e]
    have hpa := hs.2 (active (old ++ new.toList))
    have hpt := total_perm hpa
    have hp := hprop (env.srtSize (active (old ++ new.toList))) 0 (allowedSize d - total (active (old ++ new.toList))) env.statusReplicas env.junk
      (by omega) (by omega) (fun s h => by simpa using (List.mem_filter.1 (hpa.mem_iff.1 h)).2)
    have hbnd := proportional_bounds d env.statusReplicas env.junk (allowedSize d - total (active (old ++ new.toList))) (by omega) (by omega)
      (env.srtSize (active (old ++ new.toList))) 0 (by omega) (by omega) (fun s h => by simpa using (List.mem_filter.1 (hpa.mem_iff.1 h)).2)
      (fun h => absurd hz h)
    generalize proportional d env.statusReplicas env.junk (allowedSize d - total (active (old ++ new.toList))) (env.srtSize (active (old ++ new.toList))) 0 = p at *
    rw [hp.2]
    rw [addLeftover_same _ _ (fun e he => (hbnd e he).1)]
    have hw := writeAll_ok d env.ok hok p.1
    rw [total_append, hin]
    unfold total; rw [hw.1, hp.1]; rfl
  intro s hsm
  have hnn' : ∀ s ∈ (scale d env old new).1, 0 ≤ s.spec := fun s h => by obtain ⟨_, _, _, h1⟩ := hb.2 s h; exact h1.1
  have : ∀ l : List MSet, (∀ s ∈ l, 0 ≤ s.spec) → total l = 0 → ∀ s ∈ l, s.spec = 0 := by
    intro l
    induction l with
    | nil => simp
    | cons x l ih =>
      intro h ht y hy
      have h1 := h x (by simp)
      have h2 : 0 ≤ total l := by
        have : ∀ l : List MSet, (∀ s ∈ l, 0 ≤ s.spec) → 0 ≤ total l := by
          intro l
          induction l with
          | nil => simp
          | cons s l ih => intro h; have := h s (by simp); have := ih (fun x hx => h x (by simp [hx])); simp; omega
        exact this l (fun x hx => h x (by simp [hx]))
      simp at ht
      rcases List.mem_cons.1 hy with rfl | hy
      · omega
      · exact ih (fun x hx => h x (by simp [hx])) (by omega) y hy
  exact this _ hnn' hfin s hsm

/-! ## C13: scale-out -/

theorem total_map_up (name : String) (add : Int) (l : List MSet) (hnd : (l.map (·.name)).Nodup) (s : MSet) (hs : s ∈ l) (hn : s.name = name) :
    ((l.map fun s => if some s.name = some name then s.spec + add else s.spec)).sum = total l + add := by
  induction l with
  | nil => simp at hs
  | cons x l ih =>
    simp only [List.map_cons, List.nodup_cons] at hnd
    rcases List.mem_cons.1 hs with rfl | hs
    · have : (l.map fun s => if some s.name = some name then s.spec + add else s.spec) = l.map (·.spec) := by
        apply List.map_congr_left
        intro y hy
        have : y.name ≠ name := by rintro h; exact hnd.1 (by rw [hn, ← h]; exact List.mem_map.2 ⟨y, hy, rfl⟩)
        simp [this]
      simp only [List.map_cons, hn, if_true, List.sum_cons, this, total]; omega
    · have : x.name ≠ name := by
        rintro h; exact hnd.1 (by rw [h, ← hn]; exact List.mem_map.2 ⟨s, hs, rfl⟩)
      have i := ih hnd.2 hs
      simp only [List.map_cons, Option.some.injEq, this, if_false, List.sum_cons, total_cons] at i ⊢
      omega

/-- **C13** (partial): scaling out, when the new set is active: for all outcomes only the new set grows; if the calls
succeed the total becomes exactly the allowed size. -/
theorem C13_scale_out_partial (d : Dep) (hd : d.strategy = .rolling) (env : Env) (hs : env.Sorts)
    (old : List MSet) (n : MSet) (hnn : ∀ s ∈ old ++ [n], 0 ≤ s.spec) (hnames : ((old ++ [n]).map (·.name)).Nodup)
    (hact : SeveralActive (old ++ [n])) (hsat : isSaturated d (some n) = false) (hn : 0 < n.spec)
    (hup : total (old ++ [n]) ≤ Allowed d) :
    (((scale d env old (some n)).1.map (·.name)).Perm ((old ++ [n]).map (·.name)))
    ∧ (∀ s' ∈ (scale d env old (some n)).1, ∃ s ∈ old ++ [n], s.name = s'.name ∧ s.spec ≤ s'.spec ∧ (s'.name ≠ n.name → s'.spec = s.spec))
    ∧ (env.AllOk → total (scale d env old (some n)).1 = Allowed d) := by
  simp only [allowed_eq] at *
  obtain ⟨hat, hin⟩ := active_total _ hnn
  have hall : old ++ (some n).toList = old ++ [n] := rfl
  have e : scale d env old (some n) = (((old ++ [n]).filter fun s => !(s.spec > 0)) ++
      (writeAll d env.ok (upSizes (some n.name) (allowedSize d - total (active (old ++ [n]))) (active (old ++ [n])))).1,
      (writeAll d env.ok (upSizes (some n.name) (allowedSize d - total (active (old ++ [n]))) (active (old ++ [n])))).2) := by
    unfold scale
    simp only [find_none env hs old (some n) hact, hsat, Bool.false_eq_true, if_false, hd, if_true, hall, Option.map_some]
    rw [if_pos (by omega)]
    rw [addLeftover_same]
    intro x hx
    simp only [upSizes, List.mem_map] at hx
    obtain ⟨s, hs1, rfl⟩ := hx
    have := hnn s (List.mem_filter.1 hs1).1
    simp only; split <;> omega
  have hna : n ∈ active (old ++ [n]) := List.mem_filter.2 ⟨by simp, by simpa using hn⟩
  have hw := writeAll_spec d env.ok (upSizes (some n.name) (allowedSize d - total (active (old ++ [n]))) (active (old ++ [n])))
  rw [e]
  refine ⟨?_, ?_, ?_⟩
  · simp only [List.map_append (f := (fun s : MSet => s.name)) (l₁ := (old ++ [n]).filter _), hw.1]
    have : (upSizes (some n.name) (allowedSize d - total (active (old ++ [n]))) (active (old ++ [n]))).map (fun e => e.1.name) = (active (old ++ [n])).map (·.name) := by
      simp [upSizes, Function.comp_def]
    rw [this]
    have hsp := (split_perm (old ++ [n]) (fun s => decide (s.spec > 0))).map (·.name)
    rw [List.map_append (l₁ := (old ++ [n]).filter _)] at hsp
    exact hsp
  · intro s' hs'
    rcases List.mem_append.1 hs' with hs' | hs'
    · exact ⟨s', (List.mem_filter.1 hs').1, rfl, Int.le_refl _, fun _ => rfl⟩
    · obtain ⟨x, hx, h1, h2⟩ := hw.2 s' hs'
      simp only [upSizes, List.mem_map] at hx
      obtain ⟨s, hs1, rfl⟩ := hx
      refine ⟨s, (List.mem_filter.1 hs1).1, h1, ?_, ?_⟩
      · rcases h2 with h2 | h2
        · rw [h2]; simp only; split <;> omega
        · rw [h2]; exact Int.le_refl _
      · intro hne
        rcases h2 with h2 | h2
        · rw [h2]; rw [← h1] at hne; simp at hne; simp [hne]
        · rw [h2]
  · intro hok
    have hwo := writeAll_ok d env.ok hok (upSizes (some n.name) (allowedSize d - total (active (old ++ [n]))) (active (old ++ [n])))
    rw [total_append, hin]
    have htw : total (writeAll d env.ok (upSizes (some n.name) (allowedSize d - total (active (old ++ [n]))) (active (old ++ [n])))).1 = _ := congrArg List.sum hwo.1
    rw [htw]
    have hnd : ((active (old ++ [n])).map (·.name)).Nodup :=
      hnames.sublist (List.filter_sublist.map _)
    have := total_map_up n.name (allowedSize d - total (active (old ++ [n]))) (active (old ++ [n])) hnd n hna rfl
    simp only [upSizes, List.map_map, Function.comp_def]
    rw [this]
    omega

/-- when the new set is saturated the old sets are scaled to zero -/
theorem C13_saturated (d : Dep) (env : Env) (hs : env.Sorts) (hok : env.AllOk) (old : List MSet) (n : MSet)
    (hact : SeveralActive (old ++ [n])) (hsat : isSaturated d (some n) = true) (hnn : ∀ s ∈ old, 0 ≤ s.spec) :
    n.spec = d.replicas ∧ n ∈ (scale d env old (some n)).1 ∧ total (scale d env old (some n)).1 = d.replicas ∧ (scale d env old (some n)).2 = false := by
  have hz : ∀ l : List MSet, total (zeroAll d env.ok l).1 = 0 ∧ (zeroAll d env.ok l).2 = false := by
    intro l
    induction l with
    | nil => exact ⟨rfl, rfl⟩
    | cons s l ih =>
      have h1 : (scaleSetEv d true s 0).1.spec = 0 ∧ (scaleSetEv d true s 0).2 = false := by
        unfold scaleSetEv; split
        · rename_i h; simp [h]
        · exact ⟨(scaleSet_ok d s 0).1, (scaleSet_ok d s 0).2.1⟩
      unfold zeroAll
      simp only [hok s, h1.2, Bool.false_eq_true, if_false, total_cons, h1.1, ih.1, ih.2]; exact ⟨rfl, trivial⟩
  have hsp : n.spec = d.replicas := by
    unfold isSaturated at hsat
    dsimp only at hsat
    split at hsat
    · simp at hsat
    · simp at hsat; exact hsat.1.1
  have e : scale d env old (some n) = ((old.filter fun s => !(s.spec > 0)) ++ (zeroAll d env.ok (active old)).1 ++ [n], (zeroAll d env.ok (active old)).2) := by
    unfold scale
    simp only [find_none env hs old (some n) hact, hsat, if_true]; rfl
  rw [e]
  refine ⟨hsp, by simp, ?_, (hz _).2⟩
  have := (active_total old hnn).2
  simp only [total_append, this, (hz _).1, total_cons, total_nil]
  omega

/-! ### where the full statement fails -/

private def four : List MSet := [⟨"a", 1, 1, some "4", some "4", 0⟩, ⟨"b", 1, 1, some "4", some "4", 1⟩, ⟨"c", 1, 1, some "4", some "4", 2⟩]
/-- Four sets of one machine each, deployment scaled from 4 to 2 without surge: 3 machines remain, not 2 (every share rounds
up to 1 and the leftover only empties one set). -/
theorem C13_leftover_lost_false :
    let d : Dep := { replicas := 2, maxSurge := some (.int 0), maxUnavailable := some (.int 1) }
    let n : MSet := ⟨"d", 1, 1, some "4", some "4", 3⟩
    total (scale d {} four (some n)).1 = 3 ∧ Allowed d = 2 := by decide +kernel

/-- A new set that has no replicas yet is not scaled out: the total stays below the allowed size. -/
theorem C13_empty_new_set_not_scaled_false :
    let d : Dep := { replicas := 10, maxSurge := some (.int 0), maxUnavailable := some (.int 1) }
    let old : List MSet := [⟨"a", 2, 2, some "4", some "4", 0⟩, ⟨"b", 2, 2, some "4", some "4", 1⟩]
    let n : MSet := ⟨"c", 0, 0, none, none, 2⟩
    total (scale d {} old (some n)).1 = 4 ∧ Allowed d = 10 := by decide +kernel

/-- With a recorded limit smaller than the new one a set grows although the deployment as a whole shrinks. -/
theorem C13_set_grows_on_scale_in_false :
    let d : Dep := { replicas := 12, maxSurge := some (.int 0), maxUnavailable := some (.int 1) }
    let n : MSet := ⟨"b", 3, 3, some "6", some "6", 1⟩
    let r := scale d {} [⟨"a", 10, 10, some "6", some "6", 0⟩] (some n)
    total r.1 = 12 ∧ r.1.map (·.spec) = [6, 6] := by decide +kernel

-- a scale-in meeting the hypotheses: 6+3 machines, 9 → 6
example : let d : Dep := { replicas := 6, maxSurge := some (.int 0), maxUnavailable := some (.int 1) }
    (scale d {} [⟨"a", 6, 6, some "9", some "9", 0⟩] (some ⟨"b", 3, 3, some "9", some "9", 1⟩)).1.map (·.spec) = [4, 2] := by decide +kernel
-- a scale-out: 2+2 → 10
example : let d : Dep := { replicas := 10, maxSurge := some (.int 0), maxUnavailable := some (.int 1) }
    (scale d {} [⟨"a", 2, 2, some "4", some "4", 0⟩] (some ⟨"b", 2, 2, some "4", some "4", 1⟩)).1.map (·.spec) = [2, 8] := by decide +kernel

/-! ## C55: a scaling request is handled once -/

theorem desiredText_reads (d : Dep) (hr : 0 ≤ d.replicas) (hm : d.replicas < 2^63) : atoi (desiredText d) = some d.replicas := by
  unfold desiredText
  obtain ⟨n, hn⟩ := Int.eq_ofNat_of_zero_le hr
  rw [hn] at hm ⊢
  exact atoi_repr n (by omega)

theorem scale_records_desired (d : Dep) (hd : d.strategy = .rolling) (hr : 0 ≤ d.replicas) (hm : d.replicas < 2^63) (env : Env) (hs : env.Sorts)
    (hok : env.AllOk) (old : List MSet) (n : MSet) (hact : SeveralActive (old ++ [n])) (hnn : ∀ s ∈ old ++ [n], 0 ≤ s.spec) :
    ∀ s ∈ (scale d env old (some n)).1, s.spec > 0 → s.desired.bind atoi = some d.replicas := by
  intro s hsm hpos
  have hdt := desiredText_reads d hr hm
  by_cases hsat : isSaturated d (some n) = true
  · have e : scale d env old (some n) = ((old.filter fun s => !(s.spec > 0)) ++ (zeroAll d env.ok (active old)).1 ++ [n], (zeroAll d env.ok (active old)).2) := by
      unfold scale
      simp only [find_none env hs old (some n) hact, hsat, if_true]; rfl
    rw [e] at hsm
    have hz : ∀ l : List MSet, ∀ x ∈ (zeroAll d env.ok l).1, x.spec = 0 := by
      intro l
      induction l with
      | nil => simp [zeroAll]
      | cons s l ih =>
        have h1 : (scaleSetEv d true s 0).1.spec = 0 ∧ (scaleSetEv d true s 0).2 = false := by
          unfold scaleSetEv; split
          · rename_i h; simp [h]
          · exact ⟨(scaleSet_ok d s 0).1, (scaleSet_ok d s 0).2.1⟩
        unfold zeroAll
        simp only [hok s, h1.2, Bool.false_eq_true, if_false]
        intro x hx
        rcases List.mem_cons.1 hx with rfl | hx
        · exact h1.1
        · exact ih x hx
    rcases List.mem_append.1 hsm with hsm | hsm
    · rcases List.mem_append.1 hsm with hsm | hsm
      · have := (List.mem_filter.1 hsm).2; simp at this; omega
      · have := hz _ s hsm; omega
    · simp at hsm; subst hsm
      unfold isSaturated at hsat
      dsimp only at hsat
      cases hdes : s.desired with
      | none => rw [hdes] at hsat; simp at hsat; split at hsat <;> simp at hsat
                rename_i v hv; rw [show atoi "" = none by decide] at hv; simp at hv
      | some t =>
        rw [hdes] at hsat
        simp only [Option.getD_some] at hsat
        split at hsat
        · simp at hsat
        · rename_i v hv
          simp at hsat
          simp [hv, hsat.1.2]
  · simp only [Bool.not_eq_true] at hsat
    have hall : old ++ (some n).toList = old ++ [n] := rfl
    have hcase : ∃ sizes, (scale d env old (some n)).1 = ((old ++ [n]).filter fun s => !(s.spec > 0)) ++ (writeAll d env.ok sizes).1 := by
      unfold scale
      simp only [find_none env hs old (some n) hact, hsat, Bool.false_eq_true, if_false, hd, if_true, hall]
      split
      · exact ⟨_, rfl⟩
      · exact ⟨_, rfl⟩
    obtain ⟨sizes, h⟩ := hcase
    rw [h] at hsm
    rcases List.mem_append.1 hsm with hsm | hsm
    · have := (List.mem_filter.1 hsm).2; simp at this; omega
    · have := (writeAll_ok d env.ok hok sizes).2.2 s hsm
      simp [this, hdt]

theorem exists_pos_of_total (l : List MSet) (h : 0 < total l) : ∃ s ∈ l, s.spec > 0 := by
  induction l with
  | nil => simp [total] at h
  | cons x l ih =>
    by_cases hx : 0 < x.spec
    · exact ⟨x, by simp, hx⟩
    · obtain ⟨s, hs, hp⟩ := ih (by simp only [total, List.map_cons, List.sum_cons] at h ⊢; omega)
      exact ⟨s, List.mem_cons_of_mem _ hs, hp⟩

/-- after a successful scaling to some replicas a machine set wants machines -/
theorem scale_leaves_some (d : Dep) (hd : d.strategy = .rolling) (hr : 0 < d.replicas) (hsur : 0 < d.replicas + maxSurge d) (env : Env) (hs : env.Sorts)
    (hok : env.AllOk) (old : List MSet) (n : MSet) (hact : SeveralActive (old ++ [n])) (hnn : ∀ s ∈ old ++ [n], 0 ≤ s.spec) :
    ∃ s ∈ (scale d env old (some n)).1, s.spec > 0 := by
  by_cases hsat : isSaturated d (some n) = true
  · have e : scale d env old (some n) = ((old.filter fun s => !(s.spec > 0)) ++ (zeroAll d env.ok (active old)).1 ++ [n], (zeroAll d env.ok (active old)).2) := by
      unfold scale
      simp only [find_none env hs old (some n) hact, hsat, if_true]; rfl
    refine ⟨n, by rw [e]; simp, ?_⟩
    unfold isSaturated at hsat
    dsimp only at hsat
    split at hsat
    · cases hsat
    · simp only [Bool.and_eq_true, beq_iff_eq] at hsat
      have := hsat.1.1
      omega
  · simp only [Bool.not_eq_true] at hsat
    have hA : Allowed d = d.replicas + maxSurge d := if_pos hr
    by_cases hdown : Allowed d < total (old ++ [n])
    · have h := (C13_scale_in_total_partial d hd env hs hok old (some n) hnn hact hsat hdown).1
      exact exists_pos_of_total _ (by omega)
    · have hall : old ++ (some n).toList = old ++ [n] := rfl
      obtain ⟨hat, hin⟩ := active_total _ hnn
      have hpos : ∀ x ∈ upSizes (some n.name) (allowedSize d - total (active (old ++ [n]))) (active (old ++ [n])), 0 < x.2 := by
        intro x hx
        simp only [upSizes, List.mem_map] at hx
        obtain ⟨s, hs1, rfl⟩ := hx
        have := (List.mem_filter.1 hs1).2
        rw [allowed_eq] at hdown
        simp only [decide_eq_true_eq] at this
        simp only; split <;> omega
      have e : (scale d env old (some n)).1 = ((old ++ [n]).filter fun s => !(s.spec > 0)) ++
          (writeAll d env.ok (upSizes (some n.name) (allowedSize d - total (active (old ++ [n]))) (active (old ++ [n])))).1 := by
        unfold scale
        simp only [find_none env hs old (some n) hact, hsat, Bool.false_eq_true, if_false, hd, if_true, hall, Option.map_some]
        rw [if_pos (by rw [allowed_eq] at hdown; omega)]
        rw [addLeftover_same]
        intro x hx
        exact Int.le_of_lt (hpos x hx)
      have hw := (writeAll_ok d env.ok hok (upSizes (some n.name) (allowedSize d - total (active (old ++ [n]))) (active (old ++ [n])))).1
      rw [e]
      cases hu : upSizes (some n.name) (allowedSize d - total (active (old ++ [n]))) (active (old ++ [n])) with
      | nil =>
        have : (active (old ++ [n])).length = 0 := by
          have := congrArg List.length hu
          simpa [upSizes] using this
        exact absurd hact (by unfold SeveralActive; unfold active at this; omega)
      | cons x rest =>
        rw [hu] at hw hpos
        cases hl : (writeAll d env.ok (x :: rest)).1 with
        | nil => rw [hl] at hw; cases hw
        | cons y l =>
          rw [hl] at hw
          refine ⟨y, by simp, ?_⟩
          have h1 : y.spec = x.2 := (List.cons.inj hw).1
          have := hpos x (by simp)
          omega

/-- **C55** (partial) After a successful scaling of a rolling deployment with several active sets (saturated case included) the
controller sees no scaling request in the resulting machine sets, so it does not scale again. When the user then changes
`replicas` to another number, a request is seen. The full statement is without `hsur`, which excludes a negative maxSurge that
leaves nothing of the replicas; it is refuted below. -/
theorem C55_scaling_handled_once_partial (d : Dep) (hd : d.strategy = .rolling) (hr : 0 ≤ d.replicas) (hm : d.replicas < 2^63)
    (hsur : 0 < d.replicas → 0 < d.replicas + maxSurge d) (env : Env) (hs : env.Sorts)
    (hok : env.AllOk) (old : List MSet) (n : MSet) (hact : SeveralActive (old ++ [n])) (hnn : ∀ s ∈ old ++ [n], 0 ≤ s.spec)
    (old' : List MSet) (n' : MSet) (hres : (old' ++ [n']).Perm (scale d env old (some n)).1) :
    isScalingEvent d old' (some n') = false
    ∧ ∀ d' : Dep, 0 ≤ d'.replicas → d'.replicas ≠ d.replicas → isScalingEvent d' old' (some n') = true := by
  have h := scale_records_desired d hd hr hm env hs hok old n hact hnn
  have h' : ∀ s ∈ active (old' ++ [n']), s.desired.bind atoi = some d.replicas := fun s hm => by
    have := List.mem_filter.1 hm
    exact h s (hres.mem_iff.1 this.1) (by simpa using this.2)
  have hsome : (active (old' ++ [n'])).length = 0 → d.replicas = 0 := by
    intro h0
    by_cases hz : d.replicas = 0
    · exact hz
    · obtain ⟨s, h3, h4⟩ := scale_leaves_some d hd (by omega) (hsur (by omega)) env hs hok old n hact hnn
      have : s ∈ active (old' ++ [n']) := List.mem_filter.2 ⟨hres.mem_iff.2 h3, by simpa using h4⟩
      have := List.length_pos_of_mem this
      omega
  constructor
  · unfold isScalingEvent
    dsimp only
    rw [if_neg]
    · rw [List.any_eq_false]
      intro s hsm
      simp [h' s hsm]
    · rintro ⟨h1, h2⟩
      have := hsome h1
      omega
  · intro d' hd' hne
    unfold isScalingEvent
    dsimp only
    split
    · rfl
    · rename_i hc
      rw [List.any_eq_true]
      cases ha : active (old' ++ [n']) with
      | nil =>
        have h0 : (active (old' ++ [n'])).length = 0 := by rw [ha]; rfl
        have := hsome h0
        exact absurd ⟨h0, by omega⟩ hc
      | cons s l =>
        refine ⟨s, by simp, ?_⟩
        rw [h' s (by rw [ha]; simp)]
        simp; omega

/-- C55, false part: with a negative maxSurge – which the validation accepts – a scaling in can empty every set of a deployment that wants replicas, and is then seen as a
request again. -/
theorem C55_negative_surge_false : ¬ ∀ (d : Dep), d.strategy = .rolling → 0 < d.replicas → ∀ (env : Env), env.Sorts → env.AllOk → ∀ (old : List MSet) (n : MSet),
    SeveralActive (old ++ [n]) → ∀ (old' : List MSet) (n' : MSet), (old' ++ [n']).Perm (scale d env old (some n)).1 → isScalingEvent d old' (some n') = false := by
  intro h
  have := h { replicas := 2, maxSurge := some (.int (-2)), maxUnavailable := some (.int 1) } rfl (by decide) {}
    ⟨fun l => List.Perm.refl l, fun l => List.Perm.refl l⟩ (fun _ => rfl) [⟨"a", 2, 2, some "4", some "2", 0⟩] ⟨"b", 2, 2, some "4", some "2", 1⟩ (by unfold SeveralActive; decide)
    [⟨"a", 0, 2, some "2", some "0", 0⟩] ⟨"b", 0, 2, some "2", some "0", 1⟩ (by
      rw [show (scale { replicas := 2, maxSurge := some (.int (-2)), maxUnavailable := some (.int 1) } {} [⟨"a", 2, 2, some "4", some "2", 0⟩]
        (some ⟨"b", 2, 2, some "4", some "2", 1⟩)).1 = [⟨"a", 0, 2, some "2", some "0", 0⟩] ++ [⟨"b", 0, 2, some "2", some "0", 1⟩] by decide +kernel])
  exact absurd this (by decide +kernel)

example : let d : Dep := { replicas := 6, maxSurge := some (.int 0), maxUnavailable := some (.int 1) }
    let n : MSet := ⟨"b", 3, 3, some "9", some "9", 1⟩
    let old : List MSet := [⟨"a", 6, 6, some "9", some "9", 0⟩]
    isScalingEvent d old (some n) = true ∧
    (scale d {} old (some n)).1 = [⟨"a", 4, 6, some "6", some "6", 0⟩] ++ [⟨"b", 2, 3, some "6", some "6", 1⟩] := by decide +kernel

end MCM.Scale
