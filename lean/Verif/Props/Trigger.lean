import Verif.Model.Trigger
/-!
C43, C53: the list of machines to be deleted in the annotation of a deployment.
-/
namespace MCM.Trigger

/-! ### C43 -/

/-- a name as Kubernetes allows it: not empty and without a comma -/
def IsName (n : Str) : Prop := n ≠ [] ∧ ',' ∉ n

theorem split_ne_nil : ∀ s, split s ≠ []
  | [] => by simp [split]
  | c :: s => by
    rw [split]
    split
    · simp
    · split <;> simp

theorem split_comma (w s : Str) (h : ',' ∉ w) : split (w ++ ',' :: s) = w :: split s := by
  induction w with
  | nil => rw [List.nil_append, split, if_pos rfl]
  | cons c w ih =>
    rw [List.mem_cons, not_or] at h
    rw [List.cons_append, split, if_neg (fun e => h.1 e.symm), ih h.2]

theorem split_single (w : Str) (h : ',' ∉ w) : split w = [w] := by
  induction w with
  | nil => rfl
  | cons c w ih =>
    rw [List.mem_cons, not_or] at h
    rw [split, if_neg (fun e => h.1 e.symm), ih h.2]

theorem split_join : ∀ (ws : List Str), ws ≠ [] → (∀ w ∈ ws, ',' ∉ w) → split (join ws) = ws
  | [], h, _ => absurd rfl h
  | [w], _, h => split_single w (h w (List.mem_singleton.2 rfl))
  | w :: v :: ws, _, h => by
    rw [join, split_comma _ _ (h w List.mem_cons_self), split_join (v :: ws) (by simp) (fun x hx => h x (List.mem_cons_of_mem _ hx))]
    · intro hc; cases hc

theorem join_ne_nil : ∀ (ws : List Str), ws ≠ [] → (∀ w ∈ ws, w ≠ []) → join ws ≠ []
  | [], h, _ => absurd rfl h
  | [w], _, h => h w (List.mem_singleton.2 rfl)
  | w :: v :: ws, _, _ => by
    rw [join]
    · simp
    · intro hc; cases hc

theorem getNames_createValue (sort : List Str → List Str) (hs : ∀ l, (sort l).Perm l) (names : List Str) (h : ∀ n ∈ names, IsName n) :
    getNames (createValue sort names) = sort names := by
  unfold createValue getNames
  by_cases he : names = []
  · subst he
    have : sort [] = [] := List.Perm.eq_nil (hs [])
    rw [this]
    rfl
  · have hne : sort names ≠ [] := fun e => he (by have := hs names; rw [e] at this; exact this.symm.eq_nil)
    have hm : ∀ n ∈ sort names, IsName n := fun n hn => h n ((hs names).mem_iff.1 hn)
    rw [if_neg (join_ne_nil _ hne fun n hn => (hm n hn).1)]
    exact split_join _ hne fun n hn => (hm n hn).2

/-- C43: Names written to the annotation and read back are the same names (in another order). -/
theorem C43_round_trip (sort : List Str → List Str) (hs : ∀ l, (sort l).Perm l) (names : List Str) (h : ∀ n ∈ names, IsName n) :
    (getNames (createValue sort names)).Perm names := by
  rw [getNames_createValue sort hs names h]
  exact hs names

/-- C43: and a value read and written again says the same. -/
theorem C43_value_round_trip (sort : List Str → List Str) (hs : ∀ l, (sort l).Perm l) (value : Str) (h : ∀ n ∈ getNames value, IsName n) (n : Str) :
    n ∈ getNames (createValue sort (getNames value)) ↔ n ∈ getNames value :=
  (C43_round_trip sort hs _ h).mem_iff

example : getNames "b,a".toList = ["b".toList, "a".toList] ∧ createValue List.reverse ["b".toList, "a".toList] = "a,b".toList := by decide +kernel

/-! ### C53 -/

/-- the machine of this name is known, alive, and not marked yet -/
def ToMark (cache : List Mach) (n : Str) : Prop := ∃ m, find cache n = some m ∧ m.done = false ∧ m.priority = false

/-- no machine of this name is known, or it is being deleted or has failed -/
def Obsolete (cache : List Mach) (n : Str) : Prop := ∀ m, find cache n = some m → m.done = true

theorem loop_spec (cache : List Mach) (ok : Nat → Bool) : ∀ (ns : List Str) (i : Nat),
    (∀ a ∈ (loop cache ok i ns).1, ∃ n ∈ ns, a = .setPriority n ∧ ToMark cache n) ∧
    ((loop cache ok i ns).2.2 = true → (∀ n ∈ ns, ToMark cache n → .setPriority n ∈ (loop cache ok i ns).1) ∧
      ∀ n, n ∈ (loop cache ok i ns).2.1 ↔ n ∈ ns ∧ Obsolete cache n)
  | [], i => by simp [loop]
  | n :: ns, i => by
    have skip : Obsolete cache n → loop cache ok i (n :: ns) = ((loop cache ok i ns).1, n :: (loop cache ok i ns).2.1, (loop cache ok i ns).2.2) →
        (∀ a ∈ (loop cache ok i (n :: ns)).1, ∃ k ∈ n :: ns, a = .setPriority k ∧ ToMark cache k) ∧
        ((loop cache ok i (n :: ns)).2.2 = true → (∀ k ∈ n :: ns, ToMark cache k → .setPriority k ∈ (loop cache ok i (n :: ns)).1) ∧
          ∀ k, k ∈ (loop cache ok i (n :: ns)).2.1 ↔ k ∈ n :: ns ∧ Obsolete cache k) := by
      intro ho he
      obtain ⟨h1, h2⟩ := loop_spec cache ok ns i
      rw [he]
      refine ⟨fun a ha => ?_, fun hc => ?_⟩
      · obtain ⟨k, hk, h⟩ := h1 a ha
        exact ⟨k, List.mem_cons_of_mem _ hk, h⟩
      · obtain ⟨h3, h4⟩ := h2 hc
        refine ⟨fun k hk hm => ?_, fun k => ?_⟩
        · rcases List.mem_cons.1 hk with rfl | hk
          · obtain ⟨m, hf, hd, _⟩ := hm
            rw [ho m hf] at hd
            cases hd
          · exact h3 k hk hm
        · show k ∈ n :: _ ↔ _
          rw [List.mem_cons, List.mem_cons, h4]
          constructor
          · rintro (rfl | ⟨hk, h⟩)
            · exact ⟨.inl rfl, ho⟩
            · exact ⟨.inr hk, h⟩
          · rintro ⟨rfl | hk, h⟩
            · exact .inl rfl
            · exact .inr ⟨hk, h⟩
    cases hf : find cache n with
    | none =>
      refine skip (fun m hm => ?_) ?_
      · rw [hf] at hm; cases hm
      · rw [loop, hf]
    | some m =>
      by_cases hd : m.done = true
      · refine skip (fun m' hm => ?_) ?_
        · rw [hf] at hm; cases hm; exact hd
        · rw [loop, hf]; dsimp only; rw [if_pos hd]
      · have hno : ¬ Obsolete cache n := fun h => hd (h m hf)
        by_cases hp : m.priority = true
        · have he : loop cache ok i (n :: ns) = loop cache ok i ns := by
            rw [loop, hf]; dsimp only; rw [if_neg hd, if_pos hp]
          obtain ⟨h1, h2⟩ := loop_spec cache ok ns i
          rw [he]
          refine ⟨fun a ha => ?_, fun hc => ?_⟩
          · obtain ⟨k, hk, h⟩ := h1 a ha
            exact ⟨k, List.mem_cons_of_mem _ hk, h⟩
          · obtain ⟨h3, h4⟩ := h2 hc
            refine ⟨fun k hk hm => ?_, fun k => ?_⟩
            · rcases List.mem_cons.1 hk with rfl | hk
              · obtain ⟨m', hf', _, hp'⟩ := hm
                rw [hf] at hf'
                cases hf'
                rw [hp] at hp'
                cases hp'
              · exact h3 k hk hm
            · rw [h4, List.mem_cons]
              constructor
              · rintro ⟨hk, h⟩; exact ⟨.inr hk, h⟩
              · rintro ⟨rfl | hk, h⟩
                · exact absurd h hno
                · exact ⟨hk, h⟩
        · have hm : ToMark cache n := ⟨m, hf, by simpa using hd, by simpa using hp⟩
          by_cases hok : ok i = true
          · have he : loop cache ok i (n :: ns) = (.setPriority n :: (loop cache ok (i + 1) ns).1, (loop cache ok (i + 1) ns).2.1, (loop cache ok (i + 1) ns).2.2) := by
              rw [loop, hf]; dsimp only; rw [if_neg hd, if_neg hp, if_pos hok]
            obtain ⟨h1, h2⟩ := loop_spec cache ok ns (i + 1)
            rw [he]
            refine ⟨fun a ha => ?_, fun hc => ?_⟩
            · rcases List.mem_cons.1 ha with rfl | ha
              · exact ⟨n, List.mem_cons_self, rfl, hm⟩
              · obtain ⟨k, hk, h⟩ := h1 a ha
                exact ⟨k, List.mem_cons_of_mem _ hk, h⟩
            · obtain ⟨h3, h4⟩ := h2 hc
              refine ⟨fun k hk hmk => ?_, fun k => ?_⟩
              · rcases List.mem_cons.1 hk with rfl | hk
                · exact List.mem_cons_self
                · exact List.mem_cons_of_mem _ (h3 k hk hmk)
              · show k ∈ _ ↔ _
                rw [h4, List.mem_cons]
                constructor
                · rintro ⟨hk, h⟩; exact ⟨.inr hk, h⟩
                · rintro ⟨rfl | hk, h⟩
                  · exact absurd h hno
                  · exact ⟨hk, h⟩
          · have he : loop cache ok i (n :: ns) = ([], [], false) := by
              rw [loop, hf]; dsimp only; rw [if_neg hd, if_neg hp, if_neg hok]
            rw [he]
            exact ⟨fun a ha => (nomatch ha), fun hc => by cases hc⟩

/-- C53: Whatever fails: only machines named in the annotation are marked, and the annotation only ever loses names (those of machines
that are gone, being deleted or failed). -/
theorem C53_only_named (sort : List Str → List Str) (hs : ∀ l, (sort l).Perm l) (cache : List Mach) (ok : Nat → Bool) (annOk : Bool) (value : Str)
    (hn : ∀ n ∈ getNames value, Obsolete cache n ∨ IsName n) :
    ∀ a ∈ (trigger sort cache ok annOk value).1,
      (∃ n ∈ getNames value, a = .setPriority n ∧ ToMark cache n) ∨
      ∃ v, a = .setAnnotation v ∧ ∀ n, n ∈ getNames v ↔ n ∈ getNames value ∧ ¬ Obsolete cache n := by
  intro a ha
  obtain ⟨h1, h2⟩ := loop_spec cache ok (getNames value) 0
  unfold trigger at ha
  dsimp only at ha
  split at ha
  · cases ha
  · split at ha
    · exact .inl (h1 a ha)
    · rename_i hc
      have hc : (loop cache ok 0 (getNames value)).2.2 = true := by simpa using hc
      split at ha
      · exact .inl (h1 a ha)
      · split at ha
        · rcases List.mem_append.1 ha with ha | ha
          · exact .inl (h1 a ha)
          · refine .inr ⟨_, List.mem_singleton.1 ha, fun n => ?_⟩
            have hmem : ∀ n, n ∈ (getNames value).eraseDups.filter (fun n => ¬ (loop cache ok 0 (getNames value)).2.1.contains n) ↔
                n ∈ getNames value ∧ ¬ Obsolete cache n := by
              intro n
              rw [List.mem_filter, List.mem_eraseDups]
              constructor
              · rintro ⟨hv, hnot⟩
                refine ⟨hv, fun ho => ?_⟩
                have := ((h2 hc).2 n).2 ⟨hv, ho⟩
                simp [this] at hnot
              · rintro ⟨hv, hno⟩
                refine ⟨hv, ?_⟩
                have : n ∉ (loop cache ok 0 (getNames value)).2.1 := fun h => hno (((h2 hc).2 n).1 h).2
                simp [this]
            rw [getNames_createValue sort hs, (hs _).mem_iff, hmem]
            intro k hk
            obtain ⟨hv, hno⟩ := (hmem k).1 hk
            exact (hn k hv).resolve_left hno
        · exact .inl (h1 a ha)

/-- one machine per name -/
def Unique (l : List Mach) : Prop := ∀ a ∈ l, ∀ b ∈ l, a.name = b.name → a = b

theorem find_of_mem {l : List Mach} (hu : Unique l) {m : Mach} (hm : m ∈ l) : find l m.name = some m := by
  cases h : find l m.name with
  | none =>
    have := List.find?_eq_none.1 h m hm
    simp at this
  | some x =>
    have h1 := List.mem_of_find?_eq_some h
    have h2 := List.find?_some h
    rw [hu x h1 m hm (by simpa using h2)]

theorem apply_machines (as : List Action) : ∀ (w : World) (m : Mach), m ∈ w.machines →
    { m with priority := m.priority || decide (Action.setPriority m.name ∈ as) } ∈ (as.foldl World.apply w).machines := by
  induction as with
  | nil => intro w m hm; simpa using hm
  | cons a as ih =>
    intro w m hm
    rw [List.foldl_cons]
    cases a with
    | setAnnotation v =>
      have := ih (w.apply (.setAnnotation v)) m hm
      simpa using this
    | setPriority n =>
      by_cases hmn : m.name = n
      · have h1 : { m with priority := true } ∈ (w.apply (.setPriority n)).machines :=
          List.mem_map.2 ⟨m, hm, by rw [if_pos hmn]⟩
        have := ih _ _ h1
        simpa [hmn] using this
      · have h1 : m ∈ (w.apply (.setPriority n)).machines := List.mem_map.2 ⟨m, hm, by rw [if_neg hmn]⟩
        have := ih _ _ h1
        simpa [hmn] using this

theorem apply_value (as : List Action) (w : World) (h : ∀ v, Action.setAnnotation v ∉ as) : (as.foldl World.apply w).value = w.value := by
  induction as generalizing w with
  | nil => rfl
  | cons a as ih =>
    rw [List.foldl_cons, ih _ (fun v hv => h v (List.mem_cons_of_mem _ hv))]
    cases a with
    | setAnnotation v => exact absurd List.mem_cons_self (h v)
    | setPriority n => rfl

/-- C53: A pass that succeeds, working on the present state: afterwards every named machine that is neither failed nor being deleted
is marked, every machine that is not named is as it was, and the annotation names exactly the machines named before that still
have to be deleted. -/
theorem C53_marks_named (sort : List Str → List Str) (hs : ∀ l, (sort l).Perm l) (w : World) (hu : Unique w.machines) (ok : Nat → Bool) (annOk : Bool)
    (hn : ∀ m ∈ w.machines, IsName m.name) (h : (trigger sort w.machines ok annOk w.value).2 = true) :
    (∀ m ∈ w.machines, m.name ∈ getNames w.value → m.done = false → { m with priority := true } ∈ ((trigger sort w.machines ok annOk w.value).1.foldl World.apply w).machines) ∧
    (∀ m ∈ w.machines, (m.name ∉ getNames w.value ∨ m.done = true) → m ∈ ((trigger sort w.machines ok annOk w.value).1.foldl World.apply w).machines) ∧
    ∀ n, n ∈ getNames ((trigger sort w.machines ok annOk w.value).1.foldl World.apply w).value ↔
      n ∈ getNames w.value ∧ ∃ m ∈ w.machines, m.name = n ∧ m.done = false := by
  have hobs : ∀ n, ¬ Obsolete w.machines n ↔ ∃ m ∈ w.machines, m.name = n ∧ m.done = false := by
    intro n
    constructor
    · intro hno
      apply Decidable.byContradiction
      intro hc
      refine hno fun m hm => ?_
      cases hd : m.done with
      | true => rfl
      | false => exact absurd ⟨m, List.mem_of_find?_eq_some hm, by simpa using List.find?_some hm, hd⟩ hc
    · rintro ⟨m, hm, rfl, hd⟩ ho
      rw [ho m (find_of_mem hu hm)] at hd
      cases hd
  have honly := C53_only_named sort hs w.machines ok annOk w.value (fun n _ => by
    by_cases ho : Obsolete w.machines n
    · exact .inl ho
    · obtain ⟨m, hm, rfl, _⟩ := (hobs n).1 ho
      exact .inr (hn m hm))
  have hmark : ∀ n ∈ getNames w.value, ToMark w.machines n → .setPriority n ∈ (trigger sort w.machines ok annOk w.value).1 := by
    intro n hv htm
    obtain ⟨_, h2⟩ := loop_spec w.machines ok (getNames w.value) 0
    unfold trigger at h ⊢
    dsimp only at h ⊢
    split
    · rename_i he; rw [he] at hv; cases hv
    · rename_i he
      rw [if_neg he] at h
      by_cases hc : (loop w.machines ok 0 (getNames w.value)).2.2 = true
      · have hin := (h2 hc).1 n hv htm
        rw [if_neg (by simpa using hc)] at h ⊢
        split
        · exact hin
        · split
          · exact List.mem_append_left _ hin
          · exact hin
      · rw [if_pos (by simpa using hc)] at h
        cases h
  refine ⟨fun m hm hv hd => ?_, fun m hm hv => ?_, fun n => ?_⟩
  · have h1 := apply_machines (trigger sort w.machines ok annOk w.value).1 w m hm
    by_cases hp : m.priority = true
    · simpa [hp] using h1
    · have := hmark m.name hv ⟨m, find_of_mem hu hm, hd, by simpa using hp⟩
      simpa [this] using h1
  · have h1 := apply_machines (trigger sort w.machines ok annOk w.value).1 w m hm
    have hno : Action.setPriority m.name ∉ (trigger sort w.machines ok annOk w.value).1 := by
      intro ha
      rcases honly _ ha with ⟨n, hn', he, x, hx, hxd, _⟩ | ⟨v, he, _⟩
      · cases he
        rw [find_of_mem hu hm] at hx
        cases hx
        rcases hv with hv | hv
        · exact hv hn'
        · rw [hv] at hxd; cases hxd
      · cases he
    simpa [hno] using h1
  · by_cases hex : ∃ v, Action.setAnnotation v ∈ (trigger sort w.machines ok annOk w.value).1
    · obtain ⟨v, hv⟩ := hex
      -- the annotation is written by the last request
      have hlast : ((trigger sort w.machines ok annOk w.value).1.foldl World.apply w).value = v := by
        unfold trigger at hv ⊢
        dsimp only at hv ⊢
        obtain ⟨h1, _⟩ := loop_spec w.machines ok (getNames w.value) 0
        have hnl : Action.setAnnotation v ∉ (loop w.machines ok 0 (getNames w.value)).1 := by
          intro ha
          obtain ⟨n, _, he, _⟩ := h1 _ ha
          cases he
        split at hv
        · cases hv
        · rename_i e1
          rw [if_neg e1]
          split at hv
          · exact absurd hv hnl
          · rename_i e2
            rw [if_neg e2]
            split at hv
            · exact absurd hv hnl
            · rename_i e3
              rw [if_neg e3]
              split at hv
              · rename_i e4
                rw [if_pos e4, List.foldl_append]
                rcases List.mem_append.1 hv with hv | hv
                · exact absurd hv hnl
                · have := List.mem_singleton.1 hv
                  cases this
                  rfl
              · exact absurd hv hnl
      rw [hlast]
      rcases honly _ hv with ⟨_, _, he, _⟩ | ⟨v', he, h'⟩
      · cases he
      · cases he
        rw [h', hobs]
    · rw [apply_value _ _ (fun v hv => hex ⟨v, hv⟩)]
      refine ⟨fun hv => ⟨hv, ?_⟩, fun hv => hv.1⟩
      rw [← hobs]
      intro ho
      -- an obsolete name would have been removed
      apply hex
      obtain ⟨_, h2⟩ := loop_spec w.machines ok (getNames w.value) 0
      unfold trigger at h ⊢
      dsimp only at h ⊢
      split
      · rename_i he; rw [he] at hv; cases hv
      · rename_i he
        rw [if_neg he] at h
        by_cases hc : (loop w.machines ok 0 (getNames w.value)).2.2 = true
        · have hin := ((h2 hc).2 n).2 ⟨hv, ho⟩
          rw [if_neg (by simpa using hc)] at h ⊢
          rw [if_neg (fun e => by rw [e] at hin; cases hin)] at h ⊢
          split
          · exact ⟨_, List.mem_append_right _ (List.mem_singleton.2 rfl)⟩
          · rename_i ha
            rw [if_neg ha] at h
            cases h
        · rw [if_pos (by simpa using hc)] at h
          cases h

/-- C53: When the calls succeed, so does the pass. -/
theorem C53_succeeds (sort : List Str → List Str) (cache : List Mach) (value : Str) : (trigger sort cache (fun _ => true) true value).2 = true := by
  have hl : ∀ (ns : List Str) (i : Nat), (loop cache (fun _ => true) i ns).2.2 = true := by
    intro ns
    induction ns with
    | nil => intro i; rfl
    | cons n ns ih =>
      intro i
      rw [loop]
      split
      · exact ih i
      · split
        · exact ih i
        · split
          · exact ih i
          · exact ih (i + 1)
  unfold trigger
  dsimp only
  split
  · rfl
  · rw [if_neg (by simp [hl])]
    split
    · rfl
    · rfl

/-- C53, false part: The machines are looked up by name only: a name in the annotation of one deployment marks the machine of
another one. -/
theorem C53_foreign_machine_false : ¬ ∀ (sort : List Str → List Str) (d : Str) (cache : List Mach) (value : Str) (n : Str),
    .setPriority n ∈ (trigger sort cache (fun _ => true) true value).1 → ∃ m, find cache n = some m ∧ m.deployment = d := by
  intro h
  obtain ⟨m, hm, hd⟩ := h id ['a'] [{ name := ['m'], deployment := ['b'] }] ['m'] ['m'] (by decide)
  have hf : find [{ name := ['m'], deployment := ['b'] }] ['m'] = some { name := ['m'], deployment := ['b'] } := by decide
  rw [hf] at hm
  cases hm
  revert hd
  decide

/-- C53, false part: A name that the cache does not hold yet is removed from the annotation although the machine exists, so that it is
never deleted. -/
theorem C53_unseen_machine_dropped_false : ¬ ∀ (sort : List Str → List Str) (cache : List Mach) (w : World) (m : Mach), m ∈ w.machines →
    m.done = false → m.name ∈ getNames w.value → m.name ∈ getNames ((trigger sort cache (fun _ => true) true w.value).1.foldl World.apply w).value := by
  intro h
  exact absurd (h id [] { machines := [{ name := ['m'] }], value := ['m'] } { name := ['m'] } (by decide) (by decide) (by decide)) (by decide)

/-- C53, false part: Names separated by a comma and a blank are not understood: the second is removed without effect. -/
theorem C53_blank_dropped_false : ¬ ∀ (sort : List Str → List Str) (w : World) (m : Mach) (a : Str), m ∈ w.machines → m.done = false →
    w.value = a ++ ',' :: ' ' :: m.name → { m with priority := true } ∈ ((trigger sort w.machines (fun _ => true) true w.value).1.foldl World.apply w).machines := by
  intro h
  exact absurd (h id { machines := [{ name := ['a'] }, { name := ['b'] }], value := ['a', ',', ' ', 'b'] } { name := ['b'] } ['a'] (by decide) (by decide) (by decide)) (by decide)

example : trigger id [{ name := ['a'] }, { name := ['b'], failed := true }, { name := ['c'], priority := true }, { name := ['d'] }] (fun _ => true) true "b,a,x,c".toList =
    ([.setPriority ['a'], .setAnnotation "a,c".toList], true) := by decide +kernel

end MCM.Trigger
