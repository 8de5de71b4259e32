import Verif.Model.NodeSync
import Verif.Props.Taints
/-!
C33, C34: labels, annotations and taints of a node converge to the template of its machine, and nothing else is touched.
-/
namespace MCM.NodeSync
open Taints

/-- what a template or a node says: a label, an annotation, or the taint of a key and effect -/
inductive Key
  | annotation (k : String) | label (k : String) | taint (k e : String)
deriving DecidableEq

/-- the values: a text, or a taint's value and time -/
abbrev Val := String × Option Int

def taintAt (l : List Taint) (k e : String) : Option Val := (l.find? fun t => t.key = k ∧ t.effect = e).map fun t => (t.value, t.timeAdded)

def Template.at (t : Template) : Key → Option Val
  | .annotation k => (List.lookup k t.annotations).map (·, none)
  | .label k => (List.lookup k t.labels).map (·, none)
  | .taint k e => taintAt t.taints k e

def Node.at (n : Node) : Key → Option Val
  | .annotation k => (List.lookup k n.annotations).map (·, none)
  | .label k => (List.lookup k n.labels).map (·, none)
  | .taint k e => taintAt n.taints k e

/-- templates as they come from a Go map and a validated list of taints: one entry per key -/
structure WF (t : Template) : Prop where
  annotations : (t.annotations.map (·.1)).Nodup
  labels : (t.labels.map (·.1)).Nodup
  taints : Valid t.taints

/-- the three-way merge -/
def merged (t n last : Key → Option Val) (k : Key) : Option Val :=
  match t k with
  | some v => some v
  | none => if (last k).isSome then none else n k

/-! ### maps -/

theorem lookup_del (m : SMap) (k k' : String) : List.lookup k (m.del k') = if k = k' then none else List.lookup k m := by
  unfold SMap.del
  induction m with
  | nil => simp
  | cons e l ih =>
    obtain ⟨a, b⟩ := e
    by_cases ha : a = k'
    · have : ((a, b) :: l).filter (fun e => e.1 != k') = l.filter (fun e => e.1 != k') := by simp [ha]
      rw [this, ih, List.lookup_cons]
      by_cases hk : k = k'
      · rw [if_pos hk, if_pos hk]
      · have : (k == a) = false := by simp [ha, hk]
        rw [if_neg hk, if_neg hk, this]
    · have : ((a, b) :: l).filter (fun e => e.1 != k') = (a, b) :: l.filter (fun e => e.1 != k') := by simp [ha]
      rw [this, List.lookup_cons, List.lookup_cons, ih]
      by_cases hk : k = k'
      · have : (k == a) = false := by
          rw [hk]; simpa using fun e => ha e.symm
        rw [this, if_pos hk]
      · rw [if_neg hk, if_neg hk]

theorem lookup_set (m : SMap) (k k' v : String) : List.lookup k (m.set k' v) = if k = k' then some v else List.lookup k m := by
  show List.lookup k ((k', v) :: m.del k') = _
  rw [List.lookup_cons, lookup_del]
  by_cases hk : k = k'
  · rw [if_pos hk]; simp [hk]
  · have : (k == k') = false := by simpa using hk
    rw [this, if_neg hk, if_neg hk]

theorem lookup_isSome_iff (m : SMap) (k : String) : (List.lookup k m).isSome = true ↔ k ∈ m.map (·.1) := by
  induction m with
  | nil => simp
  | cons e l ih =>
    obtain ⟨a, b⟩ := e
    rw [List.lookup_cons]
    by_cases hk : k = a
    · simp [hk]
    · have : (k == a) = false := by simpa using hk
      rw [this]
      simp [ih, hk]

theorem mem_keys_cons {a b k : String} {l : SMap} (hk : k ≠ a) : k ∈ ((a, b) :: l).map (·.1) ↔ k ∈ l.map (·.1) := by
  rw [List.map_cons, List.mem_cons]
  exact ⟨fun h => h.resolve_left hk, .inr⟩

theorem dropKeys_spec (m : SMap) : ∀ (l n : SMap),
    (∀ k, List.lookup k (dropKeys m l n).1 = if k ∈ l.map (·.1) ∧ k ∉ m.map (·.1) then none else List.lookup k n) ∧
    ((dropKeys m l n).2 = true ↔ ∃ k ∈ l.map (·.1), k ∉ m.map (·.1))
  | [], n => by simp [dropKeys]
  | (a, b) :: l, n => by
    rw [dropKeys]
    by_cases hm : m.has a = true
    · rw [if_neg (by simpa using hm)]
      obtain ⟨h1, h2⟩ := dropKeys_spec m l n
      have ham : a ∈ m.map (·.1) := (lookup_isSome_iff m a).1 hm
      refine ⟨fun k => ?_, ?_⟩
      · rw [h1]
        by_cases hk : k = a
        · subst hk
          rw [if_neg (fun h => h.2 ham), if_neg (fun h => h.2 ham)]
        · exact ite_congr (propext (and_congr_left' (mem_keys_cons hk).symm)) (fun _ => rfl) fun _ => rfl
      · rw [h2]
        constructor
        · rintro ⟨k, hk, hn⟩; exact ⟨k, List.mem_cons_of_mem _ hk, hn⟩
        · rintro ⟨k, hk, hn⟩
          rcases List.mem_cons.1 hk with rfl | hk
          · exact absurd ham hn
          · exact ⟨k, hk, hn⟩
    · rw [if_pos (by simpa using hm)]
      obtain ⟨h1, h2⟩ := dropKeys_spec m l (n.del a)
      have ham : a ∉ m.map (·.1) := fun h => hm ((lookup_isSome_iff m a).2 h)
      refine ⟨fun k => ?_, ?_⟩
      · rw [h1, lookup_del]
        by_cases hk : k = a
        · subst hk
          rw [if_pos rfl, ite_self, if_pos ⟨List.mem_cons_self, ham⟩]
        · rw [if_neg hk]
          exact ite_congr (propext (and_congr_left' (mem_keys_cons hk).symm)) (fun _ => rfl) fun _ => rfl
      · simp only [true_iff]
        exact ⟨a, List.mem_cons_self, ham⟩

theorem addKeys_spec : ∀ (m n : SMap), (m.map (·.1)).Nodup →
    (∀ k, List.lookup k (addKeys m n).1 = match List.lookup k m with | some v => some v | none => List.lookup k n) ∧
    ((addKeys m n).2 = true ↔ ∃ k v, List.lookup k m = some v ∧ List.lookup k n ≠ some v)
  | [], n, _ => by simp [addKeys]
  | (a, b) :: l, n, hu => by
    rw [List.map_cons, List.nodup_cons] at hu
    have hla : List.lookup a l = none := by
      cases h : List.lookup a l with
      | none => rfl
      | some _ => exact absurd ((lookup_isSome_iff l a).1 (by rw [h]; rfl)) hu.1
    rw [addKeys]
    by_cases hn : List.lookup a n = some b
    · rw [if_neg (by simpa using hn)]
      obtain ⟨h1, h2⟩ := addKeys_spec l n hu.2
      refine ⟨fun k => ?_, ?_⟩
      · rw [h1, List.lookup_cons]
        by_cases hk : k = a
        · subst hk; simp [hla, hn]
        · have : (k == a) = false := by simpa using hk
          rw [this]
      · rw [h2]
        constructor
        · rintro ⟨k, v, hk, hv⟩
          refine ⟨k, v, ?_, hv⟩
          rw [List.lookup_cons]
          have : (k == a) = false := by
            have : k ≠ a := fun e => by rw [e, hla] at hk; cases hk
            simpa using this
          rw [this]; exact hk
        · rintro ⟨k, v, hk, hv⟩
          rw [List.lookup_cons] at hk
          by_cases hka : k = a
          · subst hka
            simp at hk
            subst hk
            exact absurd hn hv
          · have : (k == a) = false := by simpa using hka
            rw [this] at hk
            exact ⟨k, v, hk, hv⟩
    · rw [if_pos hn]
      obtain ⟨h1, h2⟩ := addKeys_spec l (n.set a b) hu.2
      refine ⟨fun k => ?_, ?_⟩
      · rw [h1, List.lookup_cons, lookup_set]
        by_cases hk : k = a
        · subst hk; simp [hla]
        · have : (k == a) = false := by simpa using hk
          rw [this, if_neg hk]
      · simp only [true_iff]
        exact ⟨a, b, by simp, hn⟩

theorem syncMap_spec (m n last : SMap) (hu : (m.map (·.1)).Nodup) :
    (∀ k, List.lookup k (syncMap m n last).1 =
      match List.lookup k m with
      | some v => some v
      | none => if (List.lookup k last).isSome then none else List.lookup k n) ∧
    ((syncMap m n last).2 = true ↔
      (∃ k, (List.lookup k last).isSome = true ∧ List.lookup k m = none) ∨ ∃ k v, List.lookup k m = some v ∧ List.lookup k n ≠ some v) := by
  obtain ⟨d1, d2⟩ := dropKeys_spec m last n
  obtain ⟨a1, a2⟩ := addKeys_spec m (dropKeys m last n).1 hu
  have hnone : ∀ k, k ∉ m.map (·.1) ↔ List.lookup k m = none := by
    intro k
    rw [← lookup_isSome_iff]
    cases List.lookup k m <;> simp
  unfold syncMap
  dsimp only
  refine ⟨fun k => ?_, ?_⟩
  · rw [a1]
    cases hm : List.lookup k m with
    | some v => rfl
    | none =>
      dsimp only
      rw [d1]
      by_cases hl : k ∈ last.map (·.1)
      · rw [if_pos ⟨hl, (hnone k).2 hm⟩, if_pos ((lookup_isSome_iff _ _).2 hl)]
      · rw [if_neg (fun h => hl h.1), if_neg (fun h => hl ((lookup_isSome_iff _ _).1 h))]
  · rw [Bool.or_eq_true, d2, a2]
    refine or_congr ⟨fun ⟨k, h, h'⟩ => ⟨k, (lookup_isSome_iff _ _).2 h, (hnone k).1 h'⟩,
      fun ⟨k, h, h'⟩ => ⟨k, (lookup_isSome_iff _ _).1 h, (hnone k).2 h'⟩⟩ ?_
    constructor
    · rintro ⟨k, v, hk, hv⟩
      refine ⟨k, v, hk, ?_⟩
      rw [d1, if_neg (fun h => by rw [(hnone k).1 h.2] at hk; cases hk)] at hv
      exact hv
    · rintro ⟨k, v, hk, hv⟩
      refine ⟨k, v, hk, ?_⟩
      rw [d1, if_neg (fun h => by rw [(hnone k).1 h.2] at hk; cases hk)]
      exact hv

/-! ### taints -/

/-- the taint of a key and effect -/
def tat (l : List Taint) (t : Taint) : Option Taint := l.find? fun u => u.matches t

theorem matches_congr {t u v : Taint} (h : Same u v) : t.matches u = t.matches v := by
  unfold Taint.matches
  rw [h.1, h.2]

theorem tat_congr {l : List Taint} {t u : Taint} (h : Same t u) : tat l t = tat l u := by
  unfold tat
  congr 1
  funext v
  exact matches_congr h

theorem tat_del (l : List Taint) (t u : Taint) : tat (tdel l t) u = if Same t u then none else tat l u := by
  unfold tat tdel
  induction l with
  | nil => simp
  | cons a l ih =>
    by_cases hat : a.matches t = true
    · rw [List.filter_cons, if_neg (by simpa using hat), ih, List.find?_cons]
      by_cases hs : Same t u
      · rw [if_pos hs, if_pos hs]
      · have : a.matches u = false := by
          rw [matches_false]
          exact fun h => hs (same_trans (same_symm ((matches_iff a t).1 hat)) h)
        rw [if_neg hs, if_neg hs, this]
    · rw [List.filter_cons, if_pos (by simpa using hat), List.find?_cons, List.find?_cons, ih]
      by_cases hs : Same t u
      · have : a.matches u = false := by
          rw [← matches_congr hs]; simpa using hat
        rw [this, if_pos hs]
      · rw [if_neg hs, if_neg hs]

theorem tat_set (l : List Taint) (t u : Taint) : tat (tset l t) u = if Same t u then some t else tat l u := by
  show List.find? _ (t :: tdel l t) = _
  rw [List.find?_cons]
  by_cases hs : Same t u
  · rw [if_pos hs, (matches_iff t u).2 hs]
  · rw [if_neg hs, (matches_false t u).2 hs]
    show tat (tdel l t) u = _
    rw [tat_del, if_neg hs]

/-- the last taint of a key and effect -/
theorem tat_tmap (l : List Taint) (h : Valid l) (u : Taint) : tat (tmap l) u = tat l u := by
  have key : ∀ (l acc : List Taint), Valid l → (∀ t ∈ l, ∀ v ∈ acc, ¬ Same v t) → tat (l.foldl tset acc) u = (tat l u).orElse fun _ => tat acc u := by
    intro l
    induction l with
    | nil => intro acc _ _; rfl
    | cons a l ih =>
      intro acc hv hd
      rw [Valid, List.pairwise_cons] at hv
      rw [List.foldl_cons, ih (tset acc a) hv.2 ?_, tat_set]
      · show _ = Option.orElse (List.find? _ (a :: l)) _
        rw [List.find?_cons]
        by_cases hs : Same a u
        · have hnl : tat l u = none := by
            unfold tat
            rw [List.find?_eq_none]
            intro v hvl hm
            exact hv.1 v hvl (same_trans hs (same_symm ((matches_iff v u).1 hm)))
          rw [if_pos hs, hnl, (matches_iff a u).2 hs]
          rfl
        · rw [if_neg hs, (matches_false a u).2 hs]
          rfl
      · intro t ht v hva
        rcases List.mem_cons.1 hva with rfl | hva
        · exact hv.1 t ht
        · exact hd t (List.mem_cons_of_mem _ ht) v (List.mem_filter.1 hva).1
  have := key l [] h (fun _ _ v hv => (nomatch hv))
  unfold tmap
  rw [this]
  unfold tat
  cases List.find? (fun u_1 => u_1.matches u) l <;> rfl

theorem tat_isSome (l : List Taint) (t : Taint) : (tat l t).isSome = exists_ l t := by
  unfold tat exists_
  rw [Bool.eq_iff_iff, List.find?_isSome, List.any_eq_true]

theorem tdrop_spec (m : List Taint) : ∀ (l n : List Taint),
    (∀ u, tat (tdrop m l n).1 u = if (tat l u).isSome = true ∧ tat m u = none then none else tat n u) ∧
    ((tdrop m l n).2 = true ↔ ∃ u, (tat l u).isSome = true ∧ tat m u = none)
  | [], n => by simp [tdrop, tat]
  | a :: l, n => by
    have hcons : ∀ u, tat (a :: l) u = if Same a u then some a else tat l u := by
      intro u
      show List.find? _ (a :: l) = _
      rw [List.find?_cons]
      by_cases hs : Same a u
      · rw [if_pos hs, (matches_iff a u).2 hs]
      · rw [if_neg hs, (matches_false a u).2 hs]; rfl
    rw [tdrop]
    by_cases hm : exists_ m a = true
    · rw [if_neg (by simpa using hm)]
      obtain ⟨h1, h2⟩ := tdrop_spec m l n
      have hma : tat m a ≠ none := by
        rw [← tat_isSome] at hm
        intro e; rw [e] at hm; cases hm
      refine ⟨fun u => ?_, ?_⟩
      · rw [h1, hcons]
        by_cases hs : Same a u
        · have : tat m u ≠ none := by rw [← tat_congr hs]; exact hma
          rw [if_neg (fun h => this h.2), if_neg (fun h => this h.2)]
        · rw [if_neg hs]
      · rw [h2]
        constructor
        · rintro ⟨u, hu, hn⟩
          refine ⟨u, ?_, hn⟩
          rw [hcons]
          split
          · rfl
          · exact hu
        · rintro ⟨u, hu, hn⟩
          rw [hcons] at hu
          by_cases hs : Same a u
          · rw [← tat_congr hs] at hn; exact absurd hn hma
          · rw [if_neg hs] at hu; exact ⟨u, hu, hn⟩
    · rw [if_pos (by simpa using hm)]
      obtain ⟨h1, h2⟩ := tdrop_spec m l (tdel n a)
      have hma : tat m a = none := by
        rw [← tat_isSome] at hm
        cases h : tat m a with
        | none => rfl
        | some _ => rw [h] at hm; exact absurd rfl hm
      refine ⟨fun u => ?_, ?_⟩
      · rw [h1, hcons, tat_del]
        by_cases hs : Same a u
        · rw [if_pos hs, if_pos hs, ite_self, if_pos ⟨rfl, by rw [← tat_congr hs]; exact hma⟩]
        · rw [if_neg hs, if_neg hs]
      · simp only [true_iff]
        exact ⟨a, by rw [hcons, if_pos (same_self a)]; rfl, hma⟩

theorem tat_cons (a : Taint) (l : List Taint) (u : Taint) : tat (a :: l) u = if Same a u then some a else tat l u := by
  show List.find? _ (a :: l) = _
  rw [List.find?_cons]
  by_cases hs : Same a u
  · rw [if_pos hs, (matches_iff a u).2 hs]
  · rw [if_neg hs, (matches_false a u).2 hs]; rfl

/-- what of a taint counts besides key and effect -/
def val (t : Taint) : Val := (t.value, t.timeAdded)

theorem tadd_spec : ∀ (m n : List Taint), Valid m →
    (∀ u, (tat (tadd m n).1 u).map val = match tat m u with | some t => some (val t) | none => (tat n u).map val) ∧
    ((tadd m n).2 = true ↔ ∃ u t, tat m u = some t ∧ ¬ ((tat n u).map val = some (val t) ∧ t.timeAdded = none))
  | [], n, _ => by simp [tadd, tat]
  | a :: m, n, hv => by
    rw [Valid, List.pairwise_cons] at hv
    have hma : ∀ u, Same a u → tat m u = none := by
      intro u hs
      unfold tat
      rw [List.find?_eq_none]
      intro v hvm hm
      exact hv.1 v hvm (same_trans hs (same_symm ((matches_iff v u).1 hm)))
    have hkeep : (tat n a).map val = some (val a) → a.timeAdded = none → (tadd (a :: m) n) = tadd m n := by
      intro h1 h2
      rw [tadd]
      have : List.find? (fun u => u.matches a) n = tat n a := rfl
      rw [this]
      cases hf : tat n a with
      | none => rw [hf] at h1; cases h1
      | some x =>
        rw [hf] at h1
        have h3 : val x = val a := by simpa using h1
        have h4 : x.value = a.value := congrArg Prod.fst h3
        have h5 : x.timeAdded = a.timeAdded := congrArg Prod.snd h3
        dsimp only
        rw [if_neg]
        unfold tdiffers
        simp [h4, h5, h2]
    have hchg : ¬ ((tat n a).map val = some (val a) ∧ a.timeAdded = none) → (tadd (a :: m) n) = ((tadd m (tset n a)).1, true) := by
      intro h1
      rw [tadd]
      have : List.find? (fun u => u.matches a) n = tat n a := rfl
      rw [this]
      cases hf : tat n a with
      | none => rfl
      | some x =>
        dsimp only
        rw [if_pos]
        unfold tdiffers
        apply decide_eq_true
        rintro ⟨e1, e2, e3⟩
        refine h1 ⟨?_, e3⟩
        rw [hf]
        show some (x.value, x.timeAdded) = some (a.value, a.timeAdded)
        rw [e1, e2, e3]
    by_cases hc : (tat n a).map val = some (val a) ∧ a.timeAdded = none
    · rw [hkeep hc.1 hc.2]
      obtain ⟨h1, h2⟩ := tadd_spec m n hv.2
      refine ⟨fun u => ?_, ?_⟩
      · rw [h1, tat_cons]
        by_cases hs : Same a u
        · rw [if_pos hs, hma u hs]
          dsimp only
          rw [← tat_congr hs]
          exact hc.1
        · rw [if_neg hs]
      · rw [h2]
        constructor
        · rintro ⟨u, t, ht, hn⟩
          refine ⟨u, t, ?_, hn⟩
          rw [tat_cons, if_neg (fun hs => by rw [hma u hs] at ht; cases ht)]
          exact ht
        · rintro ⟨u, t, ht, hn⟩
          rw [tat_cons] at ht
          by_cases hs : Same a u
          · rw [if_pos hs] at ht
            cases ht
            rw [← tat_congr hs] at hn
            exact absurd hc hn
          · rw [if_neg hs] at ht
            exact ⟨u, t, ht, hn⟩
    · rw [hchg hc]
      obtain ⟨h1, h2⟩ := tadd_spec m (tset n a) hv.2
      refine ⟨fun u => ?_, ?_⟩
      · rw [h1, tat_cons, tat_set]
        by_cases hs : Same a u
        · rw [if_pos hs, if_pos hs, hma u hs]
          rfl
        · rw [if_neg hs, if_neg hs]
      · simp only [true_iff]
        exact ⟨a, a, by rw [tat_cons, if_pos (same_self a)], hc⟩

theorem tmap_valid (l : List Taint) : Valid (tmap l) := by
  have key : ∀ (l acc : List Taint), Valid acc → Valid (l.foldl tset acc) := by
    intro l
    induction l with
    | nil => intro acc h; exact h
    | cons a l ih =>
      intro acc h
      refine ih _ ?_
      unfold tset Valid
      rw [List.pairwise_cons]
      refine ⟨fun u hu => ?_, List.Pairwise.filter _ h⟩
      have := (List.mem_filter.1 hu).2
      intro hs
      rw [(matches_iff u a).2 (same_symm hs)] at this
      simp at this
  exact key l [] List.Pairwise.nil

theorem syncTaints_spec (m n last : List Taint) (hm : Valid m) (hn : Valid n) :
    (∀ u, (tat (syncTaints m n last).1 u).map val =
      match tat m u with
      | some t => some (val t)
      | none => if (tat last u).isSome then none else (tat n u).map val) ∧
    ((syncTaints m n last).2 = true ↔
      (∃ u, (tat last u).isSome = true ∧ tat m u = none) ∨ ∃ u t, tat m u = some t ∧ ¬ ((tat n u).map val = some (val t) ∧ t.timeAdded = none)) := by
  obtain ⟨d1, d2⟩ := tdrop_spec (tmap m) last (tmap n)
  obtain ⟨a1, a2⟩ := tadd_spec (tmap m) (tdrop (tmap m) last (tmap n)).1 (tmap_valid m)
  simp only [tat_tmap m hm] at d1 d2 a1 a2
  simp only [tat_tmap n hn] at d1
  have hflag : ((tdrop (tmap m) last (tmap n)).2 || (tadd (tmap m) (tdrop (tmap m) last (tmap n)).1).2) = true ↔
      (∃ u, (tat last u).isSome = true ∧ tat m u = none) ∨ ∃ u t, tat m u = some t ∧ ¬ ((tat n u).map val = some (val t) ∧ t.timeAdded = none) := by
    rw [Bool.or_eq_true, d2, a2]
    refine or_congr Iff.rfl ?_
    constructor
    · rintro ⟨u, t, ht, h⟩
      refine ⟨u, t, ht, ?_⟩
      rw [d1, if_neg (fun h => by rw [h.2] at ht; cases ht)] at h
      exact h
    · rintro ⟨u, t, ht, h⟩
      refine ⟨u, t, ht, ?_⟩
      rw [d1, if_neg (fun h => by rw [h.2] at ht; cases ht)]
      exact h
  have hres : ∀ u, (tat (tadd (tmap m) (tdrop (tmap m) last (tmap n)).1).1 u).map val =
      match tat m u with
      | some t => some (val t)
      | none => if (tat last u).isSome then none else (tat n u).map val := by
    intro u
    rw [a1]
    cases ht : tat m u with
    | some t => rfl
    | none =>
      dsimp only
      rw [d1]
      by_cases hl : (tat last u).isSome = true
      · rw [if_pos ⟨hl, ht⟩, if_pos hl]; rfl
      · rw [if_neg (fun h => hl h.1), if_neg hl]
  unfold syncTaints
  dsimp only
  by_cases hf : ((tdrop (tmap m) last (tmap n)).2 || (tadd (tmap m) (tdrop (tmap m) last (tmap n)).1).2) = true
  · rw [if_pos hf]
    exact ⟨hres, by simpa using hflag.1 hf⟩
  · rw [if_neg hf]
    have hno := fun h => hf (hflag.2 h)
    refine ⟨fun u => ?_, by simpa using hno⟩
    cases ht : tat m u with
    | some t =>
      dsimp only
      have : (tat n u).map val = some (val t) ∧ t.timeAdded = none := Decidable.byContradiction fun h => hno (.inr ⟨u, t, ht, h⟩)
      exact this.1
    | none =>
      dsimp only
      have : ¬ (tat last u).isSome = true := fun h => hno (.inl ⟨u, h, ht⟩)
      rw [if_neg this]

/-! ### the whole -/

/-- the template recorded at the node -/
def recorded (n : Node) : Template :=
  match n.last with
  | some (some t) => t
  | _ => {}

theorem taintAt_eq (l : List Taint) (k e : String) : taintAt l k e = (tat l { key := k, effect := e }).map val := by
  unfold taintAt tat val
  congr 1
  congr 1
  funext t
  simp [Taint.matches]

/-- no taint of the template carries a time -/
def Timeless (t : Template) : Prop := ∀ x ∈ t.taints, x.timeAdded = none

theorem tat_mem {l : List Taint} {u t : Taint} (h : tat l u = some t) : t ∈ l ∧ Same t u :=
  ⟨List.mem_of_find?_eq_some h, (matches_iff t u).1 (List.find?_some (p := fun v : Taint => v.matches u) h)⟩

theorem decide_eq (t : Template) (n : Node) : decide_ t n = if n.last = some none then .error else
    if (n.annotations = [] ∧ n.last = none) ∨ (syncMap t.annotations n.annotations (recorded n).annotations).2 = true ∨
      (syncMap t.labels n.labels (recorded n).labels).2 = true ∨ (syncTaints t.taints n.taints (recorded n).taints).2 = true then
      .update { annotations := (syncMap t.annotations n.annotations (recorded n).annotations).1, labels := (syncMap t.labels n.labels (recorded n).labels).1, taints := (syncTaints t.taints n.taints (recorded n).taints).1, last := some (some t) }
      else .nothing := by
  unfold decide_ recorded
  rcases n with ⟨a, l, ts, _ | _ | x⟩ <;> rfl

/-- C33, C34: A sync that writes makes the node the three-way merge of the template, the node and the template recorded: the
template's values for all its keys, nothing for keys withdrawn from it, and every other key as it was. It records the template. -/
theorem C33_update_is_merge (t : Template) (ht : WF t) (n n' : Node) (hn : Valid n.taints) (h : decide_ t n = .update n') :
    (∀ k, n'.at k = merged t.at n.at (recorded n).at k) ∧ n'.last = some (some t) := by
  rw [decide_eq t n] at h
  split at h
  · cases h
  · split at h
    · cases h
      refine ⟨fun k => ?_, rfl⟩
      unfold merged
      cases k with
      | annotation k =>
        show (List.lookup k (syncMap t.annotations n.annotations (recorded n).annotations).1).map (·, none) = _
        rw [(syncMap_spec _ _ _ ht.annotations).1]
        show _ = match (List.lookup k t.annotations).map (fun s => (s, (none : Option Int))) with | some v => some v | none => _
        cases List.lookup k t.annotations with
        | some v => rfl
        | none =>
          dsimp only
          show _ = if ((List.lookup k (recorded n).annotations).map (fun s => (s, (none : Option Int)))).isSome then none else (List.lookup k n.annotations).map (fun s => (s, (none : Option Int)))
          rw [Option.isSome_map]
          split <;> rfl
      | label k =>
        show (List.lookup k (syncMap t.labels n.labels (recorded n).labels).1).map (·, none) = _
        rw [(syncMap_spec _ _ _ ht.labels).1]
        show _ = match (List.lookup k t.labels).map (fun s => (s, (none : Option Int))) with | some v => some v | none => _
        cases List.lookup k t.labels with
        | some v => rfl
        | none =>
          dsimp only
          show _ = if ((List.lookup k (recorded n).labels).map (fun s => (s, (none : Option Int)))).isSome then none else (List.lookup k n.labels).map (fun s => (s, (none : Option Int)))
          rw [Option.isSome_map]
          split <;> rfl
      | taint k e =>
        show taintAt (syncTaints t.taints n.taints (recorded n).taints).1 k e = _
        rw [taintAt_eq, (syncTaints_spec _ _ _ ht.taints hn).1]
        show _ = match taintAt t.taints k e with | some v => some v | none => if (taintAt (recorded n).taints k e).isSome then none else taintAt n.taints k e
        rw [taintAt_eq, taintAt_eq, taintAt_eq, Option.isSome_map]
        cases tat t.taints { key := k, effect := e } <;> rfl
    · cases h

/-- C33, C34: Nothing is written exactly if the node has annotations at all, agrees with the template, and nothing was withdrawn
from it. (`Timeless`: see `C34_time_added_false`.) -/
theorem C33_nothing_iff (t : Template) (ht : WF t) (htl : Timeless t) (n : Node) (hn : Valid n.taints) (hl : n.last ≠ some none) :
    decide_ t n = .nothing ↔ (n.annotations ≠ [] ∨ n.last ≠ none) ∧
      (∀ k v, t.at k = some v → n.at k = some v) ∧ ∀ k, ((recorded n).at k).isSome = true → (t.at k).isSome = true := by
  have hmap : ∀ (s : String) (o : Option String), o.map (fun s => (s, (none : Option Int))) = some (s, none) ↔ o = some s := by
    intro s o; cases o <;> simp
  rw [decide_eq, if_neg hl]
  have split3 : (∀ (b : Prop) [Decidable b] (x : Node), (if b then Decision.update x else .nothing) = .nothing ↔ ¬ b) := by
    intro b _ x; by_cases hb : b <;> simp [hb]
  rw [split3, (syncMap_spec _ _ _ ht.annotations).2, (syncMap_spec _ _ _ ht.labels).2, (syncTaints_spec _ _ _ ht.taints hn).2]
  constructor
  · intro h
    refine ⟨?_, fun k v hk => ?_, fun k hk => ?_⟩
    · apply Decidable.byContradiction
      intro hc
      exact h (.inl ⟨Decidable.byContradiction fun h' => hc (.inl h'), Decidable.byContradiction fun h' => hc (.inr h')⟩)
    · cases k with
      | annotation k =>
        cases hx : List.lookup k t.annotations with
        | none => simp [Template.at, hx] at hk
        | some s =>
          have hv : v = (s, none) := by simpa [Template.at, hx] using hk.symm
          subst hv
          refine (hmap s _).2 (Decidable.byContradiction fun hne => h (.inr (.inl (.inr ⟨k, s, hx, hne⟩))))
      | label k =>
        cases hx : List.lookup k t.labels with
        | none => simp [Template.at, hx] at hk
        | some s =>
          have hv : v = (s, none) := by simpa [Template.at, hx] using hk.symm
          subst hv
          refine (hmap s _).2 (Decidable.byContradiction fun hne => h (.inr (.inr (.inl (.inr ⟨k, s, hx, hne⟩)))))
      | taint k e =>
        have hk : taintAt t.taints k e = some v := hk
        show taintAt n.taints k e = some v
        rw [taintAt_eq] at hk ⊢
        cases hx : tat t.taints { key := k, effect := e } with
        | none => rw [hx] at hk; cases hk
        | some x =>
          rw [hx] at hk
          have hv : val x = v := by simpa using hk
          subst hv
          exact (Decidable.byContradiction fun hne => h (.inr (.inr (.inr (.inr ⟨_, x, hx, hne⟩)))) :
            (tat n.taints { key := k, effect := e }).map val = some (val x) ∧ x.timeAdded = none).1
    · cases k with
      | annotation k =>
        have hk : ((List.lookup k (recorded n).annotations).map (fun s => (s, (none : Option Int)))).isSome = true := hk
        rw [Option.isSome_map] at hk
        show ((List.lookup k t.annotations).map (fun s => (s, (none : Option Int)))).isSome = true
        rw [Option.isSome_map]
        cases hx : List.lookup k t.annotations with
        | some _ => rfl
        | none => exact absurd (.inr (.inl (.inl ⟨k, hk, hx⟩))) h
      | label k =>
        have hk : ((List.lookup k (recorded n).labels).map (fun s => (s, (none : Option Int)))).isSome = true := hk
        rw [Option.isSome_map] at hk
        show ((List.lookup k t.labels).map (fun s => (s, (none : Option Int)))).isSome = true
        rw [Option.isSome_map]
        cases hx : List.lookup k t.labels with
        | some _ => rfl
        | none => exact absurd (.inr (.inr (.inl (.inl ⟨k, hk, hx⟩)))) h
      | taint k e =>
        have hk : (taintAt (recorded n).taints k e).isSome = true := hk
        show (taintAt t.taints k e).isSome = true
        rw [taintAt_eq, Option.isSome_map] at hk ⊢
        cases hx : tat t.taints { key := k, effect := e } with
        | some _ => rfl
        | none => exact absurd (.inr (.inr (.inr (.inl ⟨_, hk, hx⟩)))) h
  · rintro ⟨h0, h1, h2⟩ h
    rcases h with ⟨ha, hb⟩ | h | h | h
    · rcases h0 with h0 | h0
      · exact h0 ha
      · exact h0 hb
    · rcases h with ⟨k, hk, hx⟩ | ⟨k, v, hk, hx⟩
      · have := h2 (.annotation k) (by show ((List.lookup k (recorded n).annotations).map _).isSome = true; rw [Option.isSome_map]; exact hk)
        have : ((List.lookup k t.annotations).map (fun s => (s, (none : Option Int)))).isSome = true := this
        rw [hx] at this
        cases this
      · exact hx ((hmap v _).1 (h1 (.annotation k) (v, none) ((hmap v _).2 hk)))
    · rcases h with ⟨k, hk, hx⟩ | ⟨k, v, hk, hx⟩
      · have := h2 (.label k) (by show ((List.lookup k (recorded n).labels).map _).isSome = true; rw [Option.isSome_map]; exact hk)
        have : ((List.lookup k t.labels).map (fun s => (s, (none : Option Int)))).isSome = true := this
        rw [hx] at this
        cases this
      · exact hx ((hmap v _).1 (h1 (.label k) (v, none) ((hmap v _).2 hk)))
    · have hc : ∀ (l : List Taint) (u : Taint), taintAt l u.key u.effect = (tat l u).map val := by
        intro l u
        rw [taintAt_eq]
        congr 1
      rcases h with ⟨u, hk, hx⟩ | ⟨u, x, hk, hx⟩
      · have h3 := h2 (.taint u.key u.effect) (by show (taintAt (recorded n).taints u.key u.effect).isSome = true; rw [hc, Option.isSome_map]; exact hk)
        have h3 : (taintAt t.taints u.key u.effect).isSome = true := h3
        rw [hc, Option.isSome_map, hx] at h3
        cases h3
      · refine hx ⟨?_, htl x (tat_mem hk).1⟩
        have h3 := h1 (.taint u.key u.effect) (val x) (by show taintAt t.taints u.key u.effect = _; rw [hc, hk]; rfl)
        have h3 : taintAt n.taints u.key u.effect = some (val x) := h3
        rw [hc] at h3
        exact h3

/-- the taints written have one entry per key and effect -/
theorem written_valid (m n last : List Taint) (hn : Valid n) : Valid (syncTaints m n last).1 := by
  have hdel : ∀ (l : List Taint) (t : Taint), Valid l → Valid (tdel l t) := fun l t h => List.Pairwise.filter _ h
  have hset : ∀ (l : List Taint) (t : Taint), Valid l → Valid (tset l t) := by
    intro l t h
    unfold tset Valid
    rw [List.pairwise_cons]
    refine ⟨fun u hu => ?_, List.Pairwise.filter _ h⟩
    have := (List.mem_filter.1 hu).2
    intro hs
    rw [(matches_iff u t).2 (same_symm hs)] at this
    simp at this
  have hdrop : ∀ (m l n : List Taint), Valid n → Valid (tdrop m l n).1 := by
    intro m l
    induction l with
    | nil => intro n h; exact h
    | cons a l ih =>
      intro n h
      rw [tdrop]
      split
      · exact ih _ (hdel _ _ h)
      · exact ih _ h
  have hadd : ∀ (m n : List Taint), Valid n → Valid (tadd m n).1 := by
    intro m
    induction m with
    | nil => intro n h; exact h
    | cons a m ih =>
      intro n h
      rw [tadd]
      split
      · split
        · exact ih _ (hset _ _ h)
        · exact ih _ h
      · exact ih _ (hset _ _ h)
  unfold syncTaints
  dsimp only
  split
  · exact hadd _ _ (hdrop _ _ _ (tmap_valid n))
  · exact hn

theorem update_taints {t : Template} {n n' : Node} (h : decide_ t n = .update n') (hn : Valid n.taints) : Valid n'.taints := by
  rw [decide_eq] at h
  split at h
  · cases h
  · split at h
    · cases h
      exact written_valid _ _ _ hn
    · cases h

/-- C34: No two taints with the same key and effect result. -/
theorem C34_taints_unique (t : Template) (n n' : Node) (hn : Valid n.taints) (h : decide_ t n = .update n') : Valid n'.taints :=
  update_taints h hn

/-- C33, C34: Syncing twice is syncing once: after an update has been accepted the next sync writes nothing. -/
theorem C33_settles (t : Template) (ht : WF t) (htl : Timeless t) (n n' : Node) (hn : Valid n.taints) (h : decide_ t n = .update n') :
    decide_ t n' = .nothing := by
  obtain ⟨h1, h2⟩ := C33_update_is_merge t ht n n' hn h
  rw [C33_nothing_iff t ht htl n' (update_taints h hn) (by rw [h2]; simp)]
  refine ⟨.inr (by rw [h2]; simp), fun k v hk => ?_, fun k hk => ?_⟩
  · rw [h1]; unfold merged; rw [hk]
  · have : recorded n' = t := by unfold recorded; rw [h2]
    rw [this] at hk
    exact hk

/-- C34, false part: A taint of the template with a time (`timeAdded`) is compared by the address of the time, which never agrees,
so the node is written again and again and the reconciliation never gets past this step. -/
theorem C34_time_added_false : ¬ ∀ (t : Template) (n n' : Node), WF t → Valid n.taints → decide_ t n = .update n' → decide_ t n' = .nothing := by
  intro h
  have hv : Valid [({ key := "k", effect := "NoExecute", timeAdded := some 0 } : Taint)] := List.pairwise_singleton _ _
  have := h { taints := [{ key := "k", effect := "NoExecute", timeAdded := some 0 }] } {} { taints := [{ key := "k", effect := "NoExecute", timeAdded := some 0 }], last := some (some { taints := [{ key := "k", effect := "NoExecute", timeAdded := some 0 }] }) }
    ⟨List.nodup_nil, List.nodup_nil, hv⟩ List.Pairwise.nil (by decide)
  revert this
  decide

/-- C33, false part: A recorded template that cannot be decoded (an edited annotation) ends every sync with an error; the node is never
brought in line again. -/
theorem C33_corrupt_record_false : ¬ ∀ (t : Template) (n : Node), decide_ t n = .nothing ∨ ∃ n', decide_ t n = .update n' := by
  intro h
  rcases h {} { last := some none } with h | ⟨n', h⟩
  · revert h; decide
  · have : decide_ {} { last := some none } = .error := by decide
    rw [this] at h
    cases h

/-! ### over time -/

/-- Others change a node only at the keys `F`, and leave it valid. -/
def OnlyAt (F : Key → Prop) (n n' : Node) : Prop := Valid n'.taints ∧ ∀ k, ¬ F k → n'.at k = n.at k

inductive Reach (F : Key → Prop) : World → Prop
  | init (t : Template) (n : Node) : n.last = none → Valid n.taints → (∀ k, ¬ F k → n.at k = none) → Reach F { tpl := t, node := n }
  | step {w w' : World} : Reach F w → Step (OnlyAt F) w w' → WF w.tpl → Reach F w'

theorem reach_inv {F : Key → Prop} {w : World} (h : Reach F w) :
    Valid w.node.taints ∧ w.node.last ≠ some none ∧ ∀ k, ¬ F k → (w.node.at k).isSome = true → ((recorded w.node).at k).isSome = true := by
  induction h with
  | init t n h1 h2 h3 =>
    refine ⟨h2, by simp [h1], fun k hk hs => ?_⟩
    rw [h3 k hk] at hs
    cases hs
  | @step w0 w1 _ hs hwf ih =>
    obtain ⟨i1, i2, i3⟩ := ih
    cases hs with
    | template t => exact ⟨i1, i2, i3⟩
    | other n hf hl =>
      refine ⟨hf.1, by rw [hl]; exact i2, fun k hk hsome => ?_⟩
      have hr : ∀ m m' : Node, m.last = m'.last → recorded m = recorded m' := by
        intro m m' e; unfold recorded; rw [e]
      rw [hr _ _ hl]
      rw [hf.2 k hk] at hsome
      exact i3 k hk hsome
    | sync n hd =>
      obtain ⟨h1, h2⟩ := C33_update_is_merge _ hwf _ _ i1 hd
      refine ⟨update_taints hd i1, by rw [h2]; simp, fun k hk hsome => ?_⟩
      have : recorded n = w0.tpl := by unfold recorded; rw [h2]
      rw [this]
      have hsome : (n.at k).isSome = true := hsome
      rw [h1] at hsome
      unfold merged at hsome
      cases ht : w0.tpl.at k with
      | some v => rfl
      | none =>
        rw [ht] at hsome
        dsimp only at hsome
        split at hsome
        · cases hsome
        · rename_i hno
          exact absurd (i3 k hk hsome) hno

/-- C33, C34: Over any history of templates and of changes made by others: whenever a sync finds nothing to write, or its update is
accepted, every key that only this controller manages has exactly the value the template gives it (and none if it gives none), and
every key that no template of the record mentions is as others left it. -/
theorem C33_converges (F : Key → Prop) (w : World) (h : Reach F w) (hwf : WF w.tpl) (htl : Timeless w.tpl) :
    (decide_ w.tpl w.node = .nothing → ∀ k, ¬ F k → w.node.at k = w.tpl.at k) ∧
    (∀ n, decide_ w.tpl w.node = .update n → (∀ k, ¬ F k → n.at k = w.tpl.at k) ∧
      ∀ k, w.tpl.at k = none → (recorded w.node).at k = none → n.at k = w.node.at k) ∧
    (decide_ w.tpl w.node = .nothing ∨ ∃ n, decide_ w.tpl w.node = .update n) := by
  obtain ⟨i1, i2, i3⟩ := reach_inv h
  refine ⟨fun hd k hk => ?_, fun n hd => ⟨fun k hk => ?_, fun k hk hr => ?_⟩, ?_⟩
  · obtain ⟨_, h1, h2⟩ := (C33_nothing_iff _ hwf htl _ i1 i2).1 hd
    cases ht : w.tpl.at k with
    | some v => exact h1 k v ht
    | none =>
      cases hn : w.node.at k with
      | none => rfl
      | some v =>
        have := h2 k (i3 k hk (by rw [hn]; rfl))
        rw [ht] at this
        cases this
  · obtain ⟨h1, _⟩ := C33_update_is_merge _ hwf _ _ i1 hd
    rw [h1]
    unfold merged
    cases ht : w.tpl.at k with
    | some v => rfl
    | none =>
      dsimp only
      split
      · rfl
      · rename_i hno
        cases hn : w.node.at k with
        | none => rfl
        | some v => exact absurd (i3 k hk (by rw [hn]; rfl)) hno
  · obtain ⟨h1, _⟩ := C33_update_is_merge _ hwf _ _ i1 hd
    rw [h1]
    unfold merged
    rw [hk, hr]
    rfl
  · cases hd : decide_ w.tpl w.node with
    | nothing => exact .inl rfl
    | update n => exact .inr ⟨n, rfl⟩
    | error =>
      rw [decide_eq, if_neg i2] at hd
      split at hd <;> cases hd

example : decide_ { labels := [("a", "2"), ("c", "3")], taints := [{ key := "t", effect := "NoSchedule" }] }
    { annotations := [("x", "y")], labels := [("a", "1"), ("b", "1"), ("own", "1")], taints := [{ key := "f", effect := "NoSchedule" }, { key := "old", effect := "NoExecute" }], last := some (some { labels := [("a", "1"), ("b", "1")], taints := [{ key := "old", effect := "NoExecute" }] }) } =
    .update { annotations := [("x", "y")], labels := [("c", "3"), ("a", "2"), ("own", "1")], taints := [{ key := "t", effect := "NoSchedule" }, { key := "f", effect := "NoSchedule" }], last := some (some { labels := [("a", "2"), ("c", "3")], taints := [{ key := "t", effect := "NoSchedule" }] }) } := by decide

end MCM.NodeSync
