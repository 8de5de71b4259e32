import Verif.Model.Validation
import Verif.Lemmas.SMap
/-!
C51: rejected objects have no effect, and accepted ones are well-formed.
-/
namespace MCM.Validation
open MCM MCM.Rolling

/-! ### what is demanded, without reference to the validation -/

/-- a budget is a whole number, or a text that is a percentage -/
def Budget (x : Option IntOrStr) (v : Int) (percent : Bool) : Prop :=
  (percent = false ∧ x = some (.int v)) ∨ (percent = true ∧ ∃ ds : List Char, x = some (.str (String.ofList (ds ++ ['%']))) ∧ atoi (String.ofList ds) = some v)

/-- the strategy is known and its budgets can be read -/
def StrategyKnown (s : Strategy) : Prop :=
  s.type = "Recreate" ∨
  (s.type = "RollingUpdate" ∧ ∃ c, s.rolling = some c ∧ (∃ v p, Budget c.maxUnavailable v p) ∧ ∃ v p, Budget c.maxSurge v p) ∨
  (s.type = "InPlaceUpdate" ∧ ∃ c o, s.inPlace = some (c, o) ∧ (o = "Auto" ∨ o = "Manual") ∧ (∃ v p, Budget c.maxUnavailable v p) ∧ ∃ v p, Budget c.maxSurge v p)

/-- the labels of the selector are labels of the template, a label with empty value being the same as none -/
def LabelsAgree (s : Selector) (template : SMap) : Prop := ∀ e ∈ s.labels, template.lookup e.1 = some e.2 ∨ (e.2 = "" ∧ template.lookup e.1 = none)

/-- the labels meet the requirement, as Kubernetes documents it -/
def Meets (ls : SMap) : Req → Prop
  | .isIn k vs => ∃ v ∈ vs, ls.lookup k = some v
  | .notIn k vs => ∀ v ∈ vs, ls.lookup k ≠ some v
  | .exists_ k => ∃ v, ls.lookup k = some v
  | .notExists k => ∀ v, ls.lookup k ≠ some v

/-- the selector selects objects with these labels -/
def Selects (s : Selector) (ls : SMap) : Prop := (∀ e ∈ s.labels, ls.lookup e.1 = some e.2) ∧ ∀ r ∈ s.exprs, Meets ls r

theorem verdict_accepted (r : Bool) (o : Option Bool) : verdict r o = .accepted ↔ r = true ∧ o = some true := by
  cases o with
  | none => exact ⟨fun h => (nomatch h), fun h => (nomatch h.2)⟩
  | some b =>
    cases r <;> cases b <;> simp [verdict]

theorem selectorOk_iff (sel : Option Selector) (t : SMap) : selectorOk sel t = some true ↔ ∃ s, sel = some s ∧ LabelsAgree s t := by
  unfold selectorOk LabelsAgree
  cases sel with
  | none => simp
  | some s =>
    rw [Option.map_some]
    constructor
    · intro h
      refine ⟨s, rfl, fun e he => ?_⟩
      have := List.all_eq_true.1 (Option.some.inj h) e he
      cases hl : t.lookup e.1 with
      | some v => rw [hl] at this; left; simpa using this
      | none => rw [hl] at this; right; exact ⟨by simpa using (beq_iff_eq.1 this).symm, rfl⟩
    · rintro ⟨s', hs, h⟩
      cases hs
      congr 1
      rw [List.all_eq_true]
      intro e he
      rcases h e he with h | ⟨h1, h2⟩
      · rw [h]; simp
      · rw [h2, h1]; rfl

theorem classOk_iff (c : ClassRef) : classOk c = true ↔ c.kind ≠ "" ∧ c.name ≠ "" := by
  unfold classOk
  rw [Bool.and_eq_true]
  simp

/-- the value of a budget for a number of replicas -/
def budgetValue (v : Int) (percent : Bool) (replicas : Int) : Int := if percent then ceilPct v replicas else v

theorem convertible_iff (x : Option IntOrStr) (r : Int) :
    convertible x r = true ↔ ∃ v p, Budget x v p ∧ -2147483648 ≤ budgetValue v p r ∧ budgetValue v p r ≤ 2147483647 := by
  unfold convertible
  have hs : ∀ w, scaledSafe x r true = some w ↔ ∃ v p, Budget x v p ∧ w = budgetValue v p r := by
    intro w
    unfold scaledSafe Budget budgetValue
    cases x with
    | none => simp
    | some x =>
      cases x with
      | int v =>
        constructor
        · intro h; cases h; exact ⟨_, false, .inl ⟨rfl, rfl⟩, rfl⟩
        · rintro ⟨v', p, ⟨rfl, h⟩ | ⟨_, ds, h, _⟩, rfl⟩
          · cases h; rfl
          · cases h
      | str s =>
        dsimp only
        constructor
        · intro h
          split at h
          · rename_i hl
            cases ha : atoi (String.ofList s.toList.dropLast) with
            | none => rw [ha] at h; cases h
            | some v =>
              rw [ha] at h
              cases h
              refine ⟨v, true, .inr ⟨rfl, s.toList.dropLast, ?_, ha⟩, rfl⟩
              have hne : s.toList ≠ [] := fun h => by rw [h] at hl; cases hl
              have : s.toList.dropLast ++ ['%'] = s.toList := by
                rw [List.getLast?_eq_some_getLast hne] at hl
                have hl := Option.some.inj hl
                rw [← hl]
                exact List.dropLast_concat_getLast hne
              rw [this, String.ofList_toList]
          · cases h
        · rintro ⟨v, p, ⟨_, h⟩ | ⟨rfl, ds, h, ha⟩, rfl⟩
          · cases h
          · have : s = String.ofList (ds ++ ['%']) := by injection h with h; injection h
            subst this
            rw [String.toList_ofList, if_pos (by simp), List.dropLast_concat, ha]
            rfl
  cases hx : scaledSafe x r true with
  | none =>
    constructor
    · intro h; cases h
    · rintro ⟨v, p, hb, _⟩
      have := (hs _).2 ⟨v, p, hb, rfl⟩
      rw [hx] at this
      cases this
  | some w =>
    obtain ⟨v, p, hb, rfl⟩ := (hs w).1 hx
    constructor
    · intro h
      refine ⟨v, p, hb, ?_⟩
      simp at h
      omega
    · rintro ⟨v', p', hb', h1, h2⟩
      have := (hs _).2 ⟨v', p', hb', rfl⟩
      rw [hx] at this
      rw [Option.some.inj this]
      simp
      omega

/-- C51: An accepted deployment has a non-negative number of replicas, a class, a known strategy whose budgets can be read, and a selector whose
labels agree with the template's. -/
theorem C51_accepted_deployment (d : DeploymentSpec) (h : validateDeployment d = .accepted) :
    0 ≤ d.replicas ∧ d.cls.kind ≠ "" ∧ d.cls.name ≠ "" ∧ StrategyKnown d.strategy ∧ ∃ s, d.selector = some s ∧ LabelsAgree s d.templateLabels := by
  unfold validateDeployment at h
  rw [verdict_accepted, Bool.and_eq_true, Bool.and_eq_true, classOk_iff, selectorOk_iff] at h
  obtain ⟨⟨⟨h1, h2⟩, h3, h4⟩, h5⟩ := h
  refine ⟨of_decide_eq_true h1, h3, h4, ?_, h5⟩
  unfold strategyOk at h2
  rw [Bool.and_eq_true, Bool.and_eq_true] at h2
  obtain ⟨⟨ha, hb⟩, hc⟩ := h2
  have hconf : ∀ c : UpdateConfig, configOk c d.replicas = true → (∃ v p, Budget c.maxUnavailable v p) ∧ ∃ v p, Budget c.maxSurge v p := by
    intro c hc
    unfold configOk at hc
    rw [Bool.and_eq_true, convertible_iff, convertible_iff] at hc
    obtain ⟨⟨v, p, h, _⟩, ⟨v', p', h', _⟩⟩ := hc
    exact ⟨⟨v, p, h⟩, ⟨v', p', h'⟩⟩
  have : d.strategy.type = "Recreate" ∨ d.strategy.type = "RollingUpdate" ∨ d.strategy.type = "InPlaceUpdate" := by simpa using ha
  rcases this with ht | ht | ht
  · exact .inl ht
  · rw [if_pos ht] at hb
    cases hr : d.strategy.rolling with
    | none => rw [hr] at hb; cases hb
    | some c =>
      rw [hr] at hb
      exact .inr (.inl ⟨ht, c, hr, hconf c hb⟩)
  · rw [if_pos ht] at hc
    cases hr : d.strategy.inPlace with
    | none => rw [hr] at hc; cases hc
    | some co =>
      obtain ⟨c, o⟩ := co
      rw [hr] at hc
      dsimp only at hc
      rw [Bool.and_eq_true, Bool.or_eq_true] at hc
      exact .inr (.inr ⟨ht, c, o, hr, by simpa using hc.2, (hconf c hc.1).1, (hconf c hc.1).2⟩)

/-- C51: The same of machine sets. -/
theorem C51_accepted_set (s : SetSpec) : validateSet s = .accepted ↔
    0 ≤ s.replicas ∧ s.cls.kind ≠ "" ∧ s.cls.name ≠ "" ∧ ∃ sel, s.selector = some sel ∧ LabelsAgree sel s.templateLabels := by
  unfold validateSet
  rw [verdict_accepted, Bool.and_eq_true, classOk_iff, selectorOk_iff]
  simp [and_assoc]

/-- C51: Machines need a class. -/
theorem C51_accepted_machine (c : ClassRef) : classOk c = true ↔ c.kind ≠ "" ∧ c.name ≠ "" := classOk_iff c

/-- C51: A deployment or set that is not accepted causes no request. -/
theorem C51_no_effect {α : Type} (v : Verdict) (rest : List α) (h : v ≠ .accepted) : guarded v rest = [] := by
  cases v with
  | accepted => exact absurd rfl h
  | rejected => rfl
  | panic => rfl

theorem atoi_no_percent (ds : List Char) (v : Int) (h : atoi (String.ofList ds) = some v) : ∀ c ∈ ds, c ≠ '%' := by
  have hd : ∀ (l : List Char) (n : Nat), digitsVal l = some n → ∀ c ∈ l, c ≠ '%' := by
    intro l n h c hc
    cases l with
    | nil => cases hc
    | cons x l =>
      rw [digitsVal] at h
      · split at h
        · rename_i hall
          have := List.all_eq_true.1 hall c hc
          intro he
          subst he
          revert this
          decide
        · cases h
      · exact fun h => (nomatch h)
  unfold atoi at h
  rw [String.toList_ofList] at h
  split at h
  · intro c hc
    rcases List.mem_cons.1 hc with rfl | hc
    · decide
    · obtain ⟨n, hn, _⟩ := Option.bind_eq_some_iff.1 h
      exact hd _ n hn c hc
  · intro c hc
    rcases List.mem_cons.1 hc with rfl | hc
    · decide
    · obtain ⟨n, hn, _⟩ := Option.bind_eq_some_iff.1 h
      exact hd _ n hn c hc
  · obtain ⟨n, hn, _⟩ := Option.bind_eq_some_iff.1 h
    exact hd _ n hn

/-- C51: The budgets of an accepted deployment cause no error later: the function used during updates (which treats texts more loosely) reads the
same value. -/
theorem C51_budgets_readable (x : Option IntOrStr) (r : Int) (h : convertible x r = true) (total : Int) (up : Bool) :
    scaledValue x total up = scaledSafe x total up ∧ (scaledValue x total up).isSome = true := by
  obtain ⟨v, p, hb, _⟩ := (convertible_iff x r).1 h
  rcases hb with ⟨_, rfl⟩ | ⟨_, ds, rfl, ha⟩
  · exact ⟨rfl, rfl⟩
  · have hno := atoi_no_percent ds v ha
    have hf : (ds ++ ['%']).filter (· != '%') = ds := by
      rw [List.filter_append, List.filter_eq_self.2 (fun c hc => by simpa using hno c hc)]
      simp
    have hl : (ds ++ ['%']).getLast? = some '%' := by simp
    unfold scaledValue scaledSafe
    dsimp only
    rw [String.toList_ofList, hf, if_pos hl, List.dropLast_concat, ha]
    exact ⟨rfl, rfl⟩

/-- C51: what a selector matches -/
theorem C51_selects (s : Selector) (ls : SMap) : s.matches ls = true ↔ Selects s ls := by
  unfold Selector.matches Selects
  rw [Bool.and_eq_true, List.all_eq_true, List.all_eq_true]
  have key : ∀ r : Req, r.matches ls = true ↔ Meets ls r := by
    intro r
    cases r with
    | isIn k vs =>
      show (match List.lookup k ls with | some v => vs.contains v | none => false) = true ↔ ∃ v ∈ vs, List.lookup k ls = some v
      generalize List.lookup k ls = x
      cases x <;> simp
    | notIn k vs =>
      show (match List.lookup k ls with | some v => !vs.contains v | none => true) = true ↔ ∀ v ∈ vs, List.lookup k ls ≠ some v
      generalize List.lookup k ls = x
      cases x with
      | none => simp
      | some y =>
        simp only [Bool.not_eq_true', ne_eq, Option.some.injEq]
        exact ⟨fun h v hv e => (by subst e; simp [hv] at h), fun h => (by simpa using fun hy => h y hy rfl)⟩
    | exists_ k =>
      show (List.lookup k ls).isSome = true ↔ ∃ v, List.lookup k ls = some v
      generalize List.lookup k ls = x
      cases x <;> simp
    | notExists k =>
      show (List.lookup k ls).isNone = true ↔ ∀ v, List.lookup k ls ≠ some v
      generalize List.lookup k ls = x
      cases x <;> simp
  exact ⟨fun h => ⟨fun e he => by simpa using h.1 e he, fun r hr => (key r).1 (h.2 r hr)⟩, fun h => ⟨fun e he => by simpa using h.1 e he, fun r hr => (key r).2 (h.2 r hr)⟩⟩

/-- C51, false part: The selector of an accepted set need not match its own template: an empty value passes for a missing label. The set
then does not recognise the machines it creates, and creates more of them without end. -/
theorem C51_selector_empty_value_false : ¬ ∀ (s : SetSpec) (sel : Selector), validateSet s = .accepted → s.selector = some sel → sel.exprs = [] → Selects sel s.templateLabels := by
  intro h
  have := h { replicas := 1, selector := some { labels := [("a", "")] }, templateLabels := [("b", "x")], cls := ⟨"MachineClass", "c"⟩ } { labels := [("a", "")] } (by decide) rfl rfl
  rw [← C51_selects] at this
  revert this
  decide

/-- C51, false part: and expressions are not checked at all. -/
theorem C51_selector_expressions_false : ¬ ∀ (s : SetSpec) (sel : Selector), validateSet s = .accepted → s.selector = some sel → (∀ e ∈ sel.labels, e.2 ≠ "") → Selects sel s.templateLabels := by
  intro h
  have := h { replicas := 1, selector := some { exprs := [.exists_ "a"] }, templateLabels := [("b", "x")], cls := ⟨"MachineClass", "c"⟩ } { exprs := [.exists_ "a"] } (by decide) rfl (by decide)
  rw [← C51_selects] at this
  revert this
  decide

/-- C51: Otherwise it does match. -/
theorem C51_selector_matches_partial (sel : Selector) (t : SMap) (h : LabelsAgree sel t) (he : sel.exprs = []) (hv : ∀ e ∈ sel.labels, e.2 ≠ "") : Selects sel t := by
  rw [← C51_selects]
  unfold Selector.matches
  rw [he, Bool.and_eq_true, List.all_eq_true]
  refine ⟨fun e hin => decide_eq_true ?_, rfl⟩
  rcases h e hin with h | h
  · exact h
  · exact absurd h.1 (hv e hin)

/-- C51, false part: A set without a selector makes the validation panic (the custom resource definitions do not demand one). -/
theorem C51_no_selector_false : ¬ ∀ s : SetSpec, validateSet s ≠ .panic := by
  intro h
  exact h { replicas := 1, selector := none, templateLabels := [], cls := ⟨"MachineClass", "c"⟩ } rfl

/-- C51, false part: Negative budgets are accepted. -/
theorem C51_negative_budget_false : ¬ ∀ (d : DeploymentSpec) (c : UpdateConfig) (v : Int), validateDeployment d = .accepted → d.strategy.type = "RollingUpdate" → d.strategy.rolling = some c →
    scaledValue c.maxSurge d.replicas true = some v → 0 ≤ v := by
  intro h
  exact absurd (h { replicas := 3, strategy := { type := "RollingUpdate", rolling := some ⟨some (.int 1), some (.int (-2))⟩ }, selector := some {}, templateLabels := [], cls := ⟨"MachineClass", "c"⟩ }
    ⟨some (.int 1), some (.int (-2))⟩ (-2) (by decide) rfl rfl rfl) (by decide)

/-- C51, false part: The strategy `InPlaceUpdate` is accepted, but there is no code for it: such a deployment never gets a machine set. -/
theorem C51_in_place_false : ¬ ∀ d : DeploymentSpec, validateDeployment d = .accepted → handled d.strategy.type = true := by
  intro h
  exact absurd (h { replicas := 3, strategy := { type := "InPlaceUpdate", inPlace := some (⟨some (.int 1), some (.int 0)⟩, "Auto") }, selector := some {}, templateLabels := [], cls := ⟨"MachineClass", "c"⟩ } (by decide)) (by decide)

/-- The documented default ("Default is RollingUpdate") is not applied: a deployment without a strategy type is never accepted. -/
theorem C51_default_type_false (d : DeploymentSpec) (h : d.strategy.type = "") : validateDeployment d ≠ .accepted := by
  intro ha
  obtain ⟨h1, _⟩ := (verdict_accepted _ _).1 ha
  rw [Bool.and_eq_true, Bool.and_eq_true] at h1
  have h2 := h1.1.2
  unfold strategyOk at h2
  rw [h] at h2
  simp at h2

/-- "This can not be 0 if MaxSurge is 0" is not checked (for the arithmetic see C09). -/
theorem C51_both_zero_false : ¬ ∀ (d : DeploymentSpec) (c : UpdateConfig), validateDeployment d = .accepted → d.strategy.type = "RollingUpdate" → d.strategy.rolling = some c →
    ¬ (c.maxUnavailable = some (.int 0) ∧ c.maxSurge = some (.int 0)) := fun h =>
  h { replicas := 3, strategy := { type := "RollingUpdate", rolling := some ⟨some (.int 0), some (.int 0)⟩ }, selector := some { labels := [("a", "b")] }, templateLabels := [("a", "b")], cls := ⟨"MachineClass", "c"⟩ }
    ⟨some (.int 0), some (.int 0)⟩ (by decide +kernel) rfl rfl ⟨rfl, rfl⟩

/-- C51: For every other strategy that is accepted there is code. -/
theorem C51_handled_partial (d : DeploymentSpec) (h : validateDeployment d = .accepted) (hne : d.strategy.type ≠ "InPlaceUpdate") : handled d.strategy.type = true := by
  have hs : strategyOk d.strategy d.replicas = true := by
    unfold validateDeployment verdict at h
    revert h
    cases strategyOk d.strategy d.replicas with
    | true => intro _; rfl
    | false => cases decide (0 ≤ d.replicas) <;> cases selectorOk d.selector d.templateLabels with
      | none => simp
      | some b => cases b <;> simp
  unfold strategyOk at hs
  rw [Bool.and_eq_true, Bool.and_eq_true] at hs
  have h1 := hs.1.1
  rw [List.contains_iff_mem, List.mem_cons, List.mem_cons, List.mem_singleton] at h1
  unfold handled
  rcases h1 with h1 | h1 | h1
  · rw [h1]; decide
  · rw [h1]; decide
  · exact absurd h1 hne

example : validateDeployment { replicas := 3, strategy := { type := "RollingUpdate", rolling := some ⟨some (.str "25%"), some (.int 1)⟩ }, selector := some { labels := [("a", "b")] }, templateLabels := [("a", "b"), ("c", "d")], cls := ⟨"MachineClass", "c"⟩ } = .accepted := by decide +kernel
example : validateDeployment { replicas := 3, strategy := { type := "RollingUpdate", rolling := some ⟨some (.str "25"), some (.int 1)⟩ }, selector := some { labels := [("a", "b")] }, templateLabels := [("a", "b"), ("c", "d")], cls := ⟨"MachineClass", "c"⟩ } = .rejected := by decide +kernel

end MCM.Validation
