import Verif.Model.Revision
import Verif.Lemmas.SMap
import Verif.Lemmas.Atoi
import Mathlib.Data.List.Nodup
/-!
# C15 – revisions
-/
namespace MCM.Revision
open MCM MCM.Template

/-! ## Independent specification -/

/-- The annotations carry the revision number `r`. -/
def HasRev (ann : SMap) (r : Int) : Prop :=
  ∃ s, List.lookup "deployment.kubernetes.io/revision" ann = some s ∧ atoi s = some r

/-- The set has a usable revision: none yet, an empty one, or a number. -/
def Readable (ann : SMap) : Prop :=
  ∀ s, List.lookup "deployment.kubernetes.io/revision" ann = some s → s = "" ∨ ∃ r, atoi s = some r

/-- `r` is one of the comma-separated entries of the history text `h` -/
def InHistory (h r : String) : Prop :=
  ∃ pre post, h = pre ++ r ++ post ∧ (pre = "" ∨ ∃ p, pre = p ++ ",") ∧ (post = "" ∨ ∃ q, post = "," ++ q)

/-! ## Lemmas -/

theorem get_of_lookup {m : SMap} {k s : String} (h : List.lookup k m = some s) : m.get k = s := by simp [SMap.get, h]
theorem has_of_lookup {m : SMap} {k s : String} (h : List.lookup k m = some s) : m.has k = true := by simp [SMap.has, h]

theorem revKey_skipped : skipped revKey = true := by decide +kernel
theorem histKey_skipped : skipped histKey = true := by decide +kernel
theorem hist_ne_rev : histKey ≠ revKey := by decide +kernel
theorem atoi_empty : atoi "" = none := by decide +kernel

theorem lookup_copy (dep ann : SMap) (ch : Bool) (k : String) (hk : skipped k = true) :
    List.lookup k (copyAnnotations dep ann ch).1 = List.lookup k ann := by
  induction dep generalizing ann ch with
  | nil => rfl
  | cons e rest ih =>
    obtain ⟨a, b⟩ := e
    rw [copyAnnotations]
    split
    · exact ih _ _
    · rw [ih]
      apply lookup_set_ne
      rintro rfl
      simp [hk] at *

theorem revision_of_hasRev {a : SMap} {r : Int} (h : HasRev a r) : revision a = some r := by
  obtain ⟨s, h1, h2⟩ := h
  unfold revision revKey
  simp [has_of_lookup h1, get_of_lookup h1, h2]

theorem le_maxRevision (old : List SMap) (m : Int) : m ≤ maxRevision old m := by
  induction old generalizing m with
  | nil => exact Int.le_refl _
  | cons a rest ih =>
    rw [maxRevision]
    cases revision a with
    | none => exact ih m
    | some v =>
      dsimp only
      split
      · have := ih v; omega
      · exact ih m

theorem mem_le_maxRevision (old : List SMap) (m : Int) (a : SMap) (ha : a ∈ old) (v : Int) (hv : revision a = some v) :
    v ≤ maxRevision old m := by
  induction old generalizing m with
  | nil => simp at ha
  | cons b rest ih =>
    rw [maxRevision]
    rcases List.mem_cons.1 ha with rfl | ha
    · rw [hv]
      dsimp only
      split
      · exact le_maxRevision rest v
      · have := le_maxRevision rest m; omega
    · cases revision b with
      | none => exact ih m ha
      | some w => exact ih _ ha

theorem wrap64_id (x : Int) (h0 : 0 ≤ x) (h1 : x < 2^63) : wrap64 x = x := by
  unfold wrap64
  omega

theorem newRevisionText_atoi (old : List SMap) (h : maxRevision old 0 + 1 < 2^63) :
    atoi (newRevisionText old) = some (maxRevision old 0 + 1) := by
  unfold newRevisionText
  have h0 := le_maxRevision old 0
  rw [wrap64_id _ (by omega) h]
  obtain ⟨n, hn⟩ := Int.eq_ofNat_of_zero_le (a := maxRevision old 0 + 1) (by omega)
  rw [hn] at h ⊢
  exact atoi_repr n (by omega)

/-- what one bump does to the revision -/
theorem bump_rev (newRev : String) (ann : SMap) (ch : Bool) (o n : Int)
    (ho : (if ann.get revKey == "" then some 0 else atoi (ann.get revKey)) = some o) (hn : atoi newRev = some n) :
    List.lookup revKey (bumpRevision newRev ann ch).1 = (if o < n then some newRev else List.lookup revKey ann)
    ∧ (bumpRevision newRev ann ch).2 = (ch || decide (o < n)) := by
  unfold bumpRevision
  dsimp only
  rw [ho, hn]
  dsimp only
  refine ⟨?_, rfl⟩
  have key : List.lookup revKey (if o < n then ann.set revKey newRev else ann) = if o < n then some newRev else List.lookup revKey ann := by
    split <;> simp
  split
  · rw [lookup_set_ne _ _ _ _ (Ne.symm hist_ne_rev), key]
  · exact key

theorem bump_bad (newRev : String) (ann : SMap) (ch : Bool)
    (h : (if ann.get revKey == "" then some 0 else atoi (ann.get revKey)) = none ∨ atoi newRev = none) :
    bumpRevision newRev ann ch = (ann, false) := by
  unfold bumpRevision
  dsimp only
  rcases h with h | h
  · rw [h]
  · rw [h]
    cases (if ann.get revKey == "" then some 0 else atoi (ann.get revKey)) <;> rfl

/-- after a bump the revision text is unchanged or is the new text, and then only because it is larger -/
theorem bump_cases (newRev : String) (ann : SMap) (ch : Bool) :
    List.lookup revKey (bumpRevision newRev ann ch).1 = List.lookup revKey ann ∨
    (List.lookup revKey (bumpRevision newRev ann ch).1 = some newRev ∧ ∃ n, atoi newRev = some n ∧
      ∀ r, atoi (ann.get revKey) = some r → r < n) := by
  cases ho : (if ann.get revKey == "" then some 0 else atoi (ann.get revKey)) with
  | none => rw [bump_bad _ _ _ (Or.inl ho)]; exact Or.inl rfl
  | some o =>
    cases hn : atoi newRev with
    | none => rw [bump_bad _ _ _ (Or.inr hn)]; exact Or.inl rfl
    | some n =>
      have h := (bump_rev newRev ann ch o n ho hn).1
      by_cases hlt : o < n
      · rw [if_pos hlt] at h
        refine Or.inr ⟨h, n, rfl, ?_⟩
        intro r hr
        by_cases he : ann.get revKey = ""
        · rw [he, atoi_empty] at hr; simp at hr
        · have : (ann.get revKey == "") = false := by simpa using he
          rw [this] at ho
          simp only [Bool.false_eq_true, if_false] at ho
          rw [ho] at hr
          cases hr; exact hlt
      · rw [if_neg hlt] at h; exact Or.inl h

theorem bump_hasRev (newRev : String) (ann : SMap) (ch : Bool) (r : Int) (h : HasRev ann r) :
    ∃ r', HasRev (bumpRevision newRev ann ch).1 r' ∧ r ≤ r' := by
  obtain ⟨s, h1, h2⟩ := h
  rcases bump_cases newRev ann ch with h | ⟨h, n, h3, h4⟩
  · exact ⟨r, ⟨s, h.trans h1, h2⟩, Int.le_refl _⟩
  · have := h4 r (by rw [show ann.get revKey = s from get_of_lookup h1]; exact h2)
    exact ⟨n, ⟨newRev, h, h3⟩, by omega⟩

/-- **C15** (never decreases): for every machine set, deployment annotation map and outcome, a set that has a revision keeps one that is
not smaller. -/
theorem C15_never_decreases (depAnn : SMap) (df : Diff) (old : List SMap) (ok : Bool) (ann : SMap) (r : Int) (h : HasRev ann r) :
    ∃ r', HasRev (syncExisting depAnn df old ok ann) r' ∧ r ≤ r' := by
  unfold syncExisting
  dsimp only
  split
  · unfold synced
    dsimp only
    have h0 : HasRev (copyAnnotations depAnn ann false).1 r := by
      obtain ⟨s, h1, h2⟩ := h
      exact ⟨s, (lookup_copy depAnn ann false revKey revKey_skipped).trans h1, h2⟩
    obtain ⟨r1, h1, l1⟩ := bump_hasRev (newRevisionText old) _ (copyAnnotations depAnn ann false).2 _ h0
    obtain ⟨r2, h2, l2⟩ := bump_hasRev (newRevisionText old) _ df.nodeTemplate _ h1
    obtain ⟨r3, h3, l3⟩ := bump_hasRev (newRevisionText old) _ df.config _ h2
    exact ⟨r3, h3, by omega⟩
  · exact ⟨r, h, Int.le_refl _⟩

theorem readable_old {ann : SMap} (h : Readable ann) :
    ∃ o, (if ann.get revKey == "" then some 0 else atoi (ann.get revKey)) = some o := by
  cases hl : List.lookup revKey ann with
  | none =>
    have : ann.get revKey = "" := by simp [SMap.get, hl]
    exact ⟨0, by simp [this]⟩
  | some s =>
    rw [get_of_lookup hl]
    rcases h s hl with h | ⟨r, h⟩
    · exact ⟨0, by simp [h]⟩
    · by_cases hs : s = ""
      · exact ⟨0, by simp [hs]⟩
      · exact ⟨r, by simp [hs, h]⟩

/-- a bump of a readable set leaves at least the new revision, or was positive and already larger -/
theorem bump_ge (newRev : String) (ann : SMap) (ch : Bool) (n : Int) (hr : Readable ann) (hn : atoi newRev = some n) (hp : 0 < n) :
    ∃ r, HasRev (bumpRevision newRev ann ch).1 r ∧ n ≤ r := by
  obtain ⟨o, ho⟩ := readable_old hr
  have h := (bump_rev newRev ann ch o n ho hn).1
  by_cases hlt : o < n
  · rw [if_pos hlt] at h
    exact ⟨n, ⟨newRev, h, hn⟩, Int.le_refl _⟩
  · rw [if_neg hlt] at h
    cases hl : List.lookup revKey ann with
    | none =>
      have : ann.get revKey = "" := by simp [SMap.get, hl]
      rw [this] at ho
      simp at ho
      omega
    | some s =>
      rw [get_of_lookup hl] at ho
      by_cases hs : s = ""
      · simp [hs] at ho; omega
      · simp [hs] at ho
        exact ⟨o, ⟨s, h.trans hl, ho⟩, by omega⟩

/-- if nothing is written, the revision was already large enough -/
theorem bump_unchanged (newRev : String) (ann : SMap) (ch : Bool) (n : Int) (hr : Readable ann) (hn : atoi newRev = some n) (hp : 0 < n)
    (hu : (bumpRevision newRev ann ch).2 = false) : ∃ r, HasRev ann r ∧ n ≤ r := by
  obtain ⟨o, ho⟩ := readable_old hr
  obtain ⟨h1, h2⟩ := bump_rev newRev ann ch o n ho hn
  rw [hu] at h2
  have hlt : ¬ o < n := by
    intro h
    simp [h] at h2
  obtain ⟨r, hr', hle⟩ := bump_ge newRev ann ch n hr hn hp
  obtain ⟨s, h3, h4⟩ := hr'
  rw [if_neg hlt] at h1
  exact ⟨r, ⟨s, h1.symm.trans h3, h4⟩, hle⟩

/-- **C15** (greatest): after the sync of the current template's machine set with a readable revision and a successful write,
it has a revision, and that is strictly greater than the revision of every old machine set. -/
theorem C15_new_revision_greatest_partial (depAnn : SMap) (df : Diff) (old : List SMap) (ann : SMap) (hr : Readable ann)
    (hb : ∀ a ∈ old, ∀ v, HasRev a v → v + 1 < 2^63) :
    ∃ r, HasRev (syncExisting depAnn df old true ann) r ∧ 0 < r ∧ ∀ a ∈ old, ∀ v, HasRev a v → v < r := by
  have hmax : maxRevision old 0 + 1 < 2^63 := by
    have key : ∀ (l : List SMap) (m : Int), (∀ a ∈ l, a ∈ old) → 0 ≤ m → m + 1 < 2^63 → maxRevision l m + 1 < 2^63 := by
      intro l
      induction l with
      | nil => intro m _ _ h; exact h
      | cons a rest ih =>
        intro m hs h0 hm
        rw [maxRevision]
        cases hv : revision a with
        | none => exact ih m (fun a ha => hs a (by simp [ha])) h0 hm
        | some v =>
          dsimp only
          apply ih _ (fun a ha => hs a (by simp [ha])) (by split <;> omega)
          split
          · apply hb a (hs a (by simp)) v
            unfold revision at hv
            split at hv
            · rename_i hh
              unfold SMap.has at hh
              obtain ⟨s, hs'⟩ := Option.isSome_iff_exists.1 hh
              refine ⟨s, hs', ?_⟩
              rw [get_of_lookup hs'] at hv
              exact hv
            · simp at hv; omega
          · exact hm
    exact key old 0 (fun a h => h) (by decide) (by decide)
  have hn := newRevisionText_atoi old hmax
  have h0 := le_maxRevision old 0
  have hpos : 0 < maxRevision old 0 + 1 := by omega
  have hfin : ∃ r, HasRev (syncExisting depAnn df old true ann) r ∧ maxRevision old 0 + 1 ≤ r := by
    have hc : Readable (copyAnnotations depAnn ann false).1 := by
      intro s hs
      exact hr s ((lookup_copy depAnn ann false revKey revKey_skipped).symm.trans hs)
    unfold syncExisting
    dsimp only
    simp only [Bool.and_true]
    split
    · unfold synced
      dsimp only
      obtain ⟨r1, h1, l1⟩ := bump_ge (newRevisionText old) _ (copyAnnotations depAnn ann false).2 _ hc hn hpos
      obtain ⟨r2, h2, l2⟩ := bump_hasRev (newRevisionText old) _ df.nodeTemplate _ h1
      obtain ⟨r3, h3, l3⟩ := bump_hasRev (newRevisionText old) _ df.config _ h2
      exact ⟨r3, h3, by omega⟩
    · rename_i hs
      unfold synced at hs
      dsimp only at hs
      have hu : (bumpRevision (newRevisionText old) (copyAnnotations depAnn ann false).1 (copyAnnotations depAnn ann false).2).2 = false := by
        cases hx : (bumpRevision (newRevisionText old) (copyAnnotations depAnn ann false).1 (copyAnnotations depAnn ann false).2).2
        · rfl
        · exact absurd (by simp [hx]) hs
      obtain ⟨r, ⟨s, h1, h2⟩, h3⟩ := bump_unchanged _ _ _ _ hc hn hpos hu
      exact ⟨r, ⟨s, (lookup_copy depAnn ann false revKey revKey_skipped).symm.trans h1, h2⟩, h3⟩
  obtain ⟨r, h1, h2⟩ := hfin
  refine ⟨r, h1, by omega, ?_⟩
  intro a ha v hv
  have := mem_le_maxRevision old 0 a ha v (revision_of_hasRev hv)
  omega

/-- a machine set created for a new template gets the number after the greatest one -/
theorem C15_created_revision (depAnn : SMap) (old : List SMap) (hb : maxRevision old 0 + 1 < 2^63) :
    ∃ r, HasRev (createdAnnotations depAnn old) r ∧ 0 < r ∧ ∀ a ∈ old, ∀ v, HasRev a v → v < r := by
  have h0 := le_maxRevision old 0
  have hc : Readable (copyAnnotations depAnn [] false).1 := by
    intro s hs
    have := (lookup_copy depAnn [] false revKey revKey_skipped).symm.trans hs
    simp [List.lookup] at this
  obtain ⟨r, h1, h2⟩ := bump_ge (newRevisionText old) _ (copyAnnotations depAnn [] false).2 _ hc (newRevisionText_atoi old hb) (by omega)
  refine ⟨r, h1, by omega, ?_⟩
  intro a ha v hv
  have := mem_le_maxRevision old 0 a ha v (revision_of_hasRev hv)
  omega

/-! ### History -/

theorem bump_hist (newRev : String) (ann : SMap) (ch : Bool) (s : String) (o n : Int) (hs : List.lookup revKey ann = some s)
    (ho : atoi s = some o) (hn : atoi newRev = some n) :
    (bumpRevision newRev ann ch).1.get histKey = if ch || decide (o < n) then recordHistory (ann.get histKey) s else ann.get histKey := by
  have hne : s ≠ "" := by
    rintro rfl
    rw [atoi_empty] at ho
    simp at ho
  unfold bumpRevision
  dsimp only
  rw [get_of_lookup hs, has_of_lookup hs, hn]
  simp only [hne, beq_iff_eq, if_false, ho, Bool.true_and]
  have key : (if o < n then ann.set revKey newRev else ann).get histKey = ann.get histKey := by
    split
    · rw [get_set_ne _ _ _ _ hist_ne_rev]
    · rfl
  split
  · rw [get_set_eq, key]
  · exact key

theorem recordHistory_in (h s : String) : InHistory (recordHistory h s) s := by
  unfold recordHistory
  split
  · exact ⟨"", "", by simp, Or.inl rfl, Or.inl rfl⟩
  · split
    · exact ⟨"", "", by simp, Or.inl rfl, Or.inl rfl⟩
    · exact ⟨h ++ ",", "", by simp, Or.inr ⟨h, rfl⟩, Or.inl rfl⟩

/-- a non-empty history that does not start with a comma is only extended -/
def GoodHist (h : String) : Prop := ∃ c cs, h.toList = c :: cs ∧ c ≠ ','

theorem recordHistory_extends (h s : String) (hg : GoodHist h) : recordHistory h s = h ++ "," ++ s := by
  obtain ⟨c, cs, h1, h2⟩ := hg
  unfold recordHistory
  rw [h1]
  simp [h2]

theorem goodHist_append (h t : String) (hg : GoodHist h) : GoodHist (h ++ t) := by
  obtain ⟨c, cs, h1, h2⟩ := hg
  exact ⟨c, cs ++ t.toList, by simp [h1], h2⟩

theorem goodHist_of_atoi (s : String) (r : Int) (h : atoi s = some r) : GoodHist s := by
  unfold atoi at h
  cases hs : s.toList with
  | nil => rw [hs] at h; simp [digitsVal] at h
  | cons c cs =>
    refine ⟨c, cs, hs, ?_⟩
    rintro rfl
    rw [hs] at h
    simp [digitsVal] at h

theorem recordHistory_good (h s : String) (hs : GoodHist s) : GoodHist (recordHistory h s) := by
  unfold recordHistory
  split
  · exact hs
  · split
    · exact hs
    · rename_i c cs hc hne
      have : GoodHist h := ⟨c, cs, hc, hne⟩
      rw [String.append_assoc]
      exact goodHist_append _ _ this

theorem inHistory_extend (h s t : String) (hi : InHistory h s) : InHistory (h ++ "," ++ t) s := by
  obtain ⟨pre, post, h1, h2, h3⟩ := hi
  refine ⟨pre, post ++ "," ++ t, by rw [h1]; simp [String.append_assoc], h2, Or.inr ?_⟩
  rcases h3 with rfl | ⟨q, rfl⟩
  · exact ⟨t, by simp⟩
  · exact ⟨q ++ "," ++ t, by simp [String.append_assoc]⟩

/-- **C15** (history): when a sync replaces a revision, the replaced one is listed in the history annotation; and when nothing is
written the history stays as it was. -/
theorem C15_history_kept (depAnn : SMap) (df : Diff) (old : List SMap) (ann : SMap) (s : String) (r : Int)
    (hs : List.lookup "deployment.kubernetes.io/revision" ann = some s) (hr : atoi s = some r)
    (hb : maxRevision old 0 + 1 < 2^63) (hlt : r < maxRevision old 0 + 1) :
    InHistory ((syncExisting depAnn df old true ann).get "deployment.kubernetes.io/revision-history") s := by
  have hn := newRevisionText_atoi old hb
  have hs0 : List.lookup revKey (copyAnnotations depAnn ann false).1 = some s :=
    (lookup_copy depAnn ann false revKey revKey_skipped).trans hs
  have hne : s ≠ "" := by rintro rfl; rw [atoi_empty] at hr; simp at hr
  have ho : (if ((copyAnnotations depAnn ann false).1.get revKey == "") then some 0 else atoi ((copyAnnotations depAnn ann false).1.get revKey)) = some r := by
    rw [get_of_lookup hs0]; simp [hne, hr]
  obtain ⟨b1, b2⟩ := bump_rev (newRevisionText old) (copyAnnotations depAnn ann false).1 (copyAnnotations depAnn ann false).2 r _ ho hn
  have b3 := bump_hist (newRevisionText old) (copyAnnotations depAnn ann false).1 (copyAnnotations depAnn ann false).2 s r _ hs0 hr hn
  simp only [hlt, if_true, decide_true, Bool.or_true] at b1 b2 b3
  -- second and third bump
  have step : ∀ (a : SMap) (ch : Bool), List.lookup revKey a = some (newRevisionText old) → InHistory (a.get histKey) s → GoodHist (a.get histKey) →
      List.lookup revKey (bumpRevision (newRevisionText old) a ch).1 = some (newRevisionText old)
      ∧ InHistory ((bumpRevision (newRevisionText old) a ch).1.get histKey) s ∧ GoodHist ((bumpRevision (newRevisionText old) a ch).1.get histKey) := by
    intro a ch hl hi hg
    have h1 := bump_hist (newRevisionText old) a ch _ _ _ hl hn hn
    refine ⟨?_, ?_⟩
    · rcases bump_cases (newRevisionText old) a ch with h | ⟨h, _⟩
      · rw [h, hl]
      · exact h
    · rw [h1]
      split
      · rw [recordHistory_extends _ _ hg]
        refine ⟨inHistory_extend _ _ _ hi, ?_⟩
        rw [String.append_assoc]
        exact goodHist_append _ _ hg
      · exact ⟨hi, hg⟩
  have hg1 : GoodHist ((bumpRevision (newRevisionText old) (copyAnnotations depAnn ann false).1 (copyAnnotations depAnn ann false).2).1.get histKey) := by
    rw [b3]; exact recordHistory_good _ _ (goodHist_of_atoi s r hr)
  have hi1 : InHistory ((bumpRevision (newRevisionText old) (copyAnnotations depAnn ann false).1 (copyAnnotations depAnn ann false).2).1.get histKey) s := by
    rw [b3]; exact recordHistory_in _ _
  obtain ⟨l2, i2, g2⟩ := step _ df.nodeTemplate b1 hi1 hg1
  obtain ⟨_, i3, _⟩ := step _ df.config l2 i2 g2
  unfold syncExisting synced
  dsimp only
  simp only [b2, Bool.true_or, Bool.true_and, if_true]
  exact i3

/-! ### All executions -/

/-- The machine sets of one deployment: name and annotations. -/
abbrev Sets := List (String × SMap)

/-- the annotations of all sets but the named one -/
def others (s : Sets) (n : String) : List SMap := (s.filter fun e => e.1 ≠ n).map (·.2)

inductive Step : Sets → Sets → Prop
  /-- a run of the controller while the existing set `n` carries the current template; the deployment has any annotations and differs in any
  of the in-place fields; the write succeeds or fails. Revisions stay below 2^63. -/
  | sync (s : Sets) (n : String) (depAnn : SMap) (df : Diff) (ok : Bool) (hb : maxRevision (others s n) 0 + 1 < 2^63) :
      Step s (s.map fun e => if e.1 = n then (e.1, syncExisting depAnn df (others s n) ok e.2) else e)
  /-- a run of the controller creates the set of a new template -/
  | create (s : Sets) (n : String) (depAnn : SMap) (hn : n ∉ s.map (·.1)) (hb : maxRevision (s.map (·.2)) 0 + 1 < 2^63) :
      Step s (s ++ [(n, createdAnnotations depAnn (s.map (·.2)))])
  /-- machine sets are deleted by clean-up or by the user -/
  | delete (s : Sets) (keep : String → Bool) : Step s (s.filter fun e => keep e.1)

inductive Steps : Sets → Sets → Prop
  | refl (a) : Steps a a
  | tail {a b c} : Steps a b → Step b c → Steps a c

/-- every set has a revision and no two sets share one -/
def Distinct (s : Sets) : Prop :=
  (s.map (·.1)).Nodup ∧ (∀ e ∈ s, ∃ r, 0 < r ∧ HasRev e.2 r) ∧
  ∀ e ∈ s, ∀ f ∈ s, ∀ r, HasRev e.2 r → HasRev f.2 r → e.1 = f.1

theorem hasRev_unique {a : SMap} {r r' : Int} (h : HasRev a r) (h' : HasRev a r') : r = r' := by
  have := (revision_of_hasRev h).symm.trans (revision_of_hasRev h')
  simpa using this

theorem others_mem (s : Sets) (n : String) (e : String × SMap) (he : e ∈ s) (hn : e.1 ≠ n) : e.2 ∈ others s n :=
  List.mem_map.2 ⟨e, List.mem_filter.2 ⟨he, by simpa using hn⟩, rfl⟩

/-- the result of a sync step of one set is either its old annotations or has a revision greater than all others -/
theorem sync_fresh_or_same (depAnn : SMap) (df : Diff) (old : List SMap) (ok : Bool) (ann : SMap) (r : Int) (hb : maxRevision old 0 + 1 < 2^63)
    (h : HasRev ann r) (hp : 0 < r) :
    ∃ r', 0 < r' ∧ HasRev (syncExisting depAnn df old ok ann) r' ∧ (r' = r ∨ ∀ a ∈ old, ∀ v, HasRev a v → v < r') := by
  cases ok with
  | false =>
    refine ⟨r, hp, ?_, Or.inl rfl⟩
    unfold syncExisting
    simp only [Bool.and_false]
    exact h
  | true =>
    have hr : Readable ann := by
      obtain ⟨s, h1, h2⟩ := h
      intro s' hs'
      rw [h1] at hs'
      cases hs'
      exact Or.inr ⟨r, h2⟩
    obtain ⟨r', h1, h2, h3⟩ := C15_new_revision_greatest_partial depAnn df old ann hr (by
      intro a ha v hv
      have := mem_le_maxRevision old 0 a ha v (revision_of_hasRev hv)
      omega)
    exact ⟨r', h2, h1, Or.inr h3⟩

theorem distinct_step {a b : Sets} (h : Distinct a) (hs : Step a b) : Distinct b := by
  obtain ⟨h1, h2, h3⟩ := h
  cases hs with
  | sync n depAnn df ok hb =>
    have hmap : (a.map fun e => if e.1 = n then (e.1, syncExisting depAnn df (others a n) ok e.2) else e).map (·.1) = a.map (·.1) := by
      rw [List.map_map]
      apply List.map_congr_left
      intro e _
      simp only [Function.comp]
      split <;> rfl
    refine ⟨by rw [hmap]; exact h1, ?_, ?_⟩
    · intro e he
      obtain ⟨x, hx, rfl⟩ := List.mem_map.1 he
      obtain ⟨r, hr1, hr2⟩ := h2 x hx
      split
      · obtain ⟨r', p, q, _⟩ := sync_fresh_or_same depAnn df (others a n) ok x.2 r hb hr2 hr1
        exact ⟨r', p, q⟩
      · exact ⟨r, hr1, hr2⟩
    · intro e he f hf r hre hrf
      obtain ⟨x, hx, rfl⟩ := List.mem_map.1 he
      obtain ⟨y, hy, rfl⟩ := List.mem_map.1 hf
      have cross : ∀ x ∈ a, ∀ y ∈ a, x.1 = n → y.1 ≠ n → ∀ r, HasRev (syncExisting depAnn df (others a n) ok x.2) r → HasRev y.2 r → False := by
        intro x hx y hy hxn hyn r hr1 hr2
        obtain ⟨rx, p, q⟩ := h2 x hx
        obtain ⟨r', _, q', q''⟩ := sync_fresh_or_same depAnn df (others a n) ok x.2 rx hb q p
        have := hasRev_unique q' hr1
        subst this
        rcases q'' with rfl | q''
        · exact hyn ((h3 x hx y hy _ q hr2).symm.trans hxn)
        · have := q'' y.2 (others_mem a n y hy hyn) _ hr2
          omega
      by_cases hxn : x.1 = n <;> by_cases hyn : y.1 = n
      · simp [hxn, hyn]
      · simp only [hxn, hyn, if_true, if_false] at hre hrf ⊢
        exact absurd (cross x hx y hy hxn hyn r hre hrf) id
      · simp only [hxn, hyn, if_true, if_false] at hre hrf ⊢
        exact absurd (cross y hy x hx hyn hxn r hrf hre) id
      · simp only [hxn, hyn, if_false] at hre hrf ⊢
        exact h3 x hx y hy r hre hrf
  | create n depAnn hn hb =>
    obtain ⟨r0, c1, c2, c3⟩ := C15_created_revision depAnn (a.map (·.2)) hb
    refine ⟨?_, ?_, ?_⟩
    · rw [List.map_append, List.nodup_append]
      refine ⟨h1, by simp, ?_⟩
      intro x hx y hy he
      simp at hy
      subst hy
      subst he
      exact hn hx
    · intro e he
      rcases List.mem_append.1 he with he | he
      · exact h2 e he
      · simp at he; subst he; exact ⟨r0, c2, c1⟩
    · intro e he f hf r hre hrf
      rcases List.mem_append.1 he with he | he <;> rcases List.mem_append.1 hf with hf | hf
      · exact h3 e he f hf r hre hrf
      · simp at hf; subst hf
        have := hasRev_unique hrf c1
        subst this
        have := c3 e.2 (List.mem_map.2 ⟨e, he, rfl⟩) _ hre
        omega
      · simp at he; subst he
        have := hasRev_unique hre c1
        subst this
        have := c3 f.2 (List.mem_map.2 ⟨f, hf, rfl⟩) _ hrf
        omega
      · simp at he hf; subst he; subst hf; rfl
  | delete keep =>
    refine ⟨(List.filter_sublist.map _).nodup h1, ?_, ?_⟩
    · intro e he; exact h2 e (List.mem_filter.1 he).1
    · intro e he f hf r hre hrf
      exact h3 e (List.mem_filter.1 he).1 f (List.mem_filter.1 hf).1 r hre hrf

/-- **C15** over all executions: starting without machine sets (or from any state with distinct revisions), through any sequence of
template changes, re-activations, annotation changes, failed writes and deletions, a revision identifies at most one machine set. -/
theorem C15_revisions_unique (a b : Sets) (h : Distinct a) (hs : Steps a b) : Distinct b := by
  induction hs with
  | refl => exact h
  | tail _ hs ih => exact distinct_step ih hs

/-! ## What does not hold -/

/-- A malformed revision annotation on the current machine set blocks the statement: the set keeps it and no revision exceeds
those of the old sets. -/
theorem C15_malformed_revision_false : ∃ (old : List SMap) (ann : SMap),
    HasRev (old.headD []) 4 ∧ ¬ ∃ r, HasRev (syncExisting [] {} old true ann) r := by
  refine ⟨[[("deployment.kubernetes.io/revision", "4")]], [("deployment.kubernetes.io/revision", "v5")],
    ⟨"4", by decide +kernel, by decide +kernel⟩, ?_⟩
  rintro ⟨r, s, h1, h2⟩
  have : syncExisting [] {} [[("deployment.kubernetes.io/revision", "4")]] true [("deployment.kubernetes.io/revision", "v5")]
      = [("deployment.kubernetes.io/revision", "v5")] := by decide +kernel
  rw [this] at h1
  have e : s = "v5" := by
    simp [List.lookup] at h1
    exact h1.symm
  subst e
  revert h2
  have : atoi "v5" = none := by decide +kernel
  rw [this]
  simp

/-- The history annotation does not only list replaced revisions: changing an unrelated annotation of the deployment appends the
current revision, without any limit. -/
theorem C15_history_lists_current_revision_false : ∃ (dep ann : SMap),
    HasRev (syncExisting dep {} [] true ann) 3 ∧ (syncExisting dep {} [] true ann).get "deployment.kubernetes.io/revision-history" = "1,3" := by
  refine ⟨[("note", "x")], [("deployment.kubernetes.io/revision", "3"), ("deployment.kubernetes.io/revision-history", "1")],
    ⟨"3", by decide +kernel, by decide +kernel⟩, by decide +kernel⟩

/-- **C15** is false at the end of the range: after the revision 2^63-1 the next one is negative, and is not written; the new set has no revision. -/
theorem C15_overflow_false : ∃ old : List SMap, HasRev (old.headD []) (2^63 - 1) ∧ ∀ depAnn, ¬ ∃ r, HasRev (createdAnnotations depAnn old) r := by
  refine ⟨[[("deployment.kubernetes.io/revision", "9223372036854775807")]], ⟨"9223372036854775807", by decide +kernel, by decide +kernel⟩, ?_⟩
  rintro depAnn ⟨r, s, h1, h2⟩
  have h0 : List.lookup revKey (copyAnnotations depAnn [] false).1 = none := lookup_copy depAnn [] false revKey revKey_skipped
  have hn : atoi (newRevisionText [[("deployment.kubernetes.io/revision", "9223372036854775807")]]) = some (-2^63) := by decide +kernel
  have ho : (if (copyAnnotations depAnn [] false).1.get revKey == "" then some 0 else atoi ((copyAnnotations depAnn [] false).1.get revKey)) = some 0 := by
    unfold SMap.get
    rw [h0]; rfl
  have := (bump_rev _ (copyAnnotations depAnn [] false).1 (copyAnnotations depAnn [] false).2 0 (-2^63) ho hn).1
  rw [if_neg (by decide), h0] at this
  have h1 : List.lookup revKey (createdAnnotations depAnn [[("deployment.kubernetes.io/revision", "9223372036854775807")]]) = some s := h1
  rw [show List.lookup revKey (createdAnnotations depAnn _) = none from this] at h1
  cases h1

/-! ## Concrete cases -/

example : syncExisting [("note", "x"), ("deployment.kubernetes.io/revision", "9")] {} [[("deployment.kubernetes.io/revision", "4")], []] true
    [("deployment.kubernetes.io/revision", "2")]
    = [("deployment.kubernetes.io/revision-history", "2"), ("deployment.kubernetes.io/revision", "5"), ("note", "x")] := by decide +kernel

example : Distinct [] := ⟨by simp, by simp, by simp⟩

example : Step [] [("a", createdAnnotations [] [])] := Step.create [] "a" [] (by simp) (by decide)

end MCM.Revision
