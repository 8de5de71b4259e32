import Verif.Model.Rough
import Verif.Lemmas.LifecycleRun
/-!
C116: whatever went wrong before, once the controllers are left undisturbed they make the desired population of machines, and delete what is to be deleted.
-/
namespace MCM.Recovery
open MCM MCM.Similar MCM.Codes
open MCM.Lifecycle (Trouble Recorded Unrecorded Left troubled delivered rough ends)
open MCM.Termination (NameLike)
open MCM.Fleet (M)

/-! ### What the creation flow writes -/

/-- the finalizer, a status, or the recording of a VM that the provider has reported or created -/
def Shaped (c : Creation.Env) (v o : Creation.Obj) (asked : Prop) : Prop :=
  (v.finalizer = false ∧ o = { v with finalizer := true }) ∨ (v.finalizer = true ∧ ∃ s, o = { v with st := s }) ∨
  (v.finalizer = true ∧ Creation.needsLabels v = true ∧ ∃ n p s, o = { Creation.labelled v n p with st := s } ∧
    (c.status = .ok n p ∨ (∃ t, c.status = .err t (some (n, p))) ∨ (asked ∧ c.create = .ok n p ∧ ¬ (n ∈ c.nodes ∧ n ≠ v.name))))

theorem record_wrote {c : Creation.Env} {v o : Creation.Obj} {n p : String} {u : Bool} {ev : List Creation.Event}
    (h : (Creation.record c v n p u ev).wrote = some o) :
    (∃ s, o = { v with st := s }) ∨ (Creation.needsLabels v = true ∧ ∃ s, o = { Creation.labelled v n p with st := s }) := by
  have hl : ∀ x, (if (Creation.needsLabels v && c.labelRes == .ok) = true then some (Creation.labelled v n p) else none) = some x →
      x = Creation.labelled v n p ∧ Creation.needsLabels v = true := by
    intro x hx
    split at hx
    · rename_i hb
      rw [Bool.and_eq_true] at hb
      cases hx; exact ⟨rfl, hb.1⟩
    · cases hx
  unfold Creation.record at h
  dsimp only at h
  split at h
  · rcases Lifecycle.initVM_exact h with ⟨s, rfl, hs⟩ | h
    · cases hw : (if (Creation.needsLabels v && c.labelRes == .ok) = true then some (Creation.labelled v n p) else none) with
      | none => exact .inl ⟨s, rfl⟩
      | some x =>
        obtain ⟨rfl, hn⟩ := hl x hw
        exact .inr ⟨hn, s, rfl⟩
    · obtain ⟨rfl, hn⟩ := hl o h
      exact .inr ⟨hn, v.st, rfl⟩
  · split at h
    · obtain ⟨rfl, hn⟩ := hl o h
      exact .inr ⟨hn, v.st, rfl⟩
    · split at h
      · dsimp only at h
        split at h
        · cases h; exact .inl ⟨_, rfl⟩
        · cases h
      · cases h

theorem createError_wrote {c : Creation.Env} {v o : Creation.Obj} {t l : String} {ev : List Creation.Event}
    (h : (Creation.createError c v t l ev).wrote = some o) : ∃ s, o = { v with st := s } := by
  unfold Creation.createError at h
  rcases Lifecycle.withStatus_exact h with h | h
  · exact ⟨_, h⟩
  · cases h

theorem createStep_asks (c : Creation.Env) (v : Creation.Obj) : Creation.Requested (Creation.createStep c v) v := by
  refine ⟨c.create, ?_⟩
  unfold Creation.createStep
  dsimp only
  split
  · rw [Creation.createError_events]; simp
  · split
    · rw [Creation.withStatus_events]; simp
    · rcases Creation.record_events c v _ _ true [.getStatus c.status, .create v c.create] with h' | ⟨c, h'⟩ <;>
        rw [h'] <;> simp

theorem createStep_shaped {c : Creation.Env} {v o : Creation.Obj} (hf : v.finalizer = true) (h : (Creation.createStep c v).wrote = some o) :
    Shaped c v o (Creation.Requested (Creation.createStep c v) v) := by
  have ha := createStep_asks c v
  generalize Creation.Requested (Creation.createStep c v) v = asked at ha
  unfold Creation.createStep at h
  dsimp only at h
  split at h
  · exact .inr (.inl ⟨hf, createError_wrote h⟩)
  · rename_i node pid he
    split at h
    · rcases Lifecycle.withStatus_exact h with h | h
      · exact .inr (.inl ⟨hf, _, h⟩)
      · cases h
    · rename_i hst
      rcases record_wrote h with h | ⟨hn, s, h⟩
      · exact .inr (.inl ⟨hf, h⟩)
      · exact .inr (.inr ⟨hf, hn, node, pid, s, h, .inr (.inr ⟨ha, he, hst⟩)⟩)

theorem creation_shaped {c : Creation.Env} {v o : Creation.Obj} (hf : v.finalizer = true) (hv : v.node ≠ none → Creation.needsLabels v = false)
    (h : (Creation.creation c v).wrote = some o) : Shaped c v o (Creation.Requested (Creation.creation c v) v) := by
  have viaStep : Creation.creation c v = Creation.createStep c v → Shaped c v o (Creation.Requested (Creation.creation c v) v) := by
    intro he
    rw [he] at h ⊢
    exact createStep_shaped hf h
  generalize ha : Creation.Requested (Creation.creation c v) v = asked at viaStep
  unfold Creation.creation at h viaStep
  split at h
  · cases h
  · rename_i hu
    rw [if_neg hu] at viaStep
    dsimp only at h viaStep
    split at h
    · rename_i node pid he
      rcases record_wrote h with h | ⟨hn, s, h⟩
      · exact .inr (.inl ⟨hf, h⟩)
      · exact .inr (.inr ⟨hf, hn, node, pid, s, h, .inl he⟩)
    · rename_i text resp he
      rw [he] at viaStep
      dsimp only at viaStep
      have labelledAlready : ∀ n u ev, v.node = some n → (Creation.record c v n "" u ev).wrote = some o → Shaped c v o asked := by
        intro n u ev hn h
        rcases record_wrote h with h | ⟨hl, s, h⟩
        · exact .inr (.inl ⟨hf, h⟩)
        · rw [hv (by rw [hn]; simp)] at hl; cases hl
      split at h
      · cases h
      · rename_i code msg hc
        rw [hc] at viaStep
        dsimp only at viaStep
        split at h
        · split at h
          · rename_i hn
            rw [hn] at viaStep
            exact viaStep rfl
          · rename_i n hn
            exact labelledAlready n _ _ hn h
        · split at h
          · rename_i hn
            rw [hn] at viaStep
            exact viaStep rfl
          · rename_i n hn
            exact labelledAlready n _ _ hn h
        · split at h
          · cases h
          · rename_i node pid
            rcases record_wrote h with h | ⟨hn, s, h⟩
            · exact .inr (.inl ⟨hf, h⟩)
            · exact .inr (.inr ⟨hf, hn, node, pid, s, h, .inr (.inl ⟨text, he⟩)⟩)
        · exact .inr (.inl ⟨hf, createError_wrote h⟩)

theorem reconcile_shaped {c : Creation.Env} {v o : Creation.Obj} (hv : v.node ≠ none → Creation.needsLabels v = false)
    (h : (Creation.reconcile c v).wrote = some o) : Shaped c v o (Creation.creates c v = true) := by
  unfold Creation.reconcile at h
  split at h
  · cases h
  · rename_i h1
    split at h
    · cases h
    · rename_i h2
      split at h
      · cases h
      · rename_i h3
        split at h
        · rename_i h4
          dsimp only at h
          split at h
          · cases h; exact .inl ⟨by simpa using h4, rfl⟩
          · cases h
        · rename_i h4
          split at h
          · cases h
          · rename_i h5
            split at h
            · rename_i h6
              have hr : Creation.reconcile c v = Creation.creation c v := by
                unfold Creation.reconcile
                rw [if_neg h1, if_neg h2, if_neg h3, if_neg h4, if_neg h5, if_pos h6]
              have hs := creation_shaped (by simpa using h4) hv h
              rw [← hr] at hs
              rcases hs with hs | hs | ⟨a, b, n, p, s, ho, hs⟩
              · exact .inl hs
              · exact .inr (.inl hs)
              · refine .inr (.inr ⟨a, b, n, p, s, ho, ?_⟩)
                rcases hs with hs | hs | ⟨hs, hs'⟩
                · exact .inl hs
                · exact .inr (.inl hs)
                · exact .inr (.inr ⟨(Creation.requests_iff _ _).2 ⟨v, hs⟩, hs'⟩)
            · cases h

/-! ### Disturbed runs of the machine controller -/

/-- the provider is honest: it says that there is no such VM, or that it cannot tell, only through the calls that do not fail -/
def Honest (t : Trouble) : Prop :=
  ∀ text, t.status = some text ∨ t.uninit = some text → ∀ m, fromError text ≠ some (.notFound, m) ∧ fromError text ≠ some (.unimplemented, m)

/-- the names and ids that the provider gives -/
def ProperVM (vm : Creation.VM) : Prop := vm.node ≠ "" ∧ vm.pid ≠ "" ∧ NameLike vm.node

/-- nothing is recorded, or exactly the VM there is -/
def Clear (vms : List Creation.VM) (v : Lifecycle.Obj) : Prop := Unrecorded vms v ∨ Recorded vms v

theorem clear_left {vms : List Creation.VM} {v : Lifecycle.Obj} (h : Clear vms v) : ∃ k ≤ 4, Left vms v k := by
  rcases h with h | h
  · cases hf : v.finalizer with
    | false => exact ⟨4, Nat.le_refl _, .bare hf h⟩
    | true => exact ⟨3, by omega, .unrecorded hf h⟩
  · obtain ⟨k, hk, h⟩ := Lifecycle.recorded_left h
    exact ⟨k, by omega, h⟩

theorem left_clear {vms : List Creation.VM} {v : Lifecycle.Obj} {k : Nat} (h : Left vms v k) : Clear vms v := by
  cases h with
  | bare _ h => exact .inl h
  | unrecorded _ h => exact .inl h
  | recorded h _ => exact .inr h
  | waiting h _ _ => exact .inr h
  | running h _ => exact .inr h

theorem clear_needs {vms : List Creation.VM} {v : Lifecycle.Obj} (h : Clear vms v) : v.node ≠ none → Creation.needsLabels v.toObj = false := by
  intro hn
  rcases h with h | h
  · exact absurd h.1 hn
  · exact Lifecycle.recorded_needs h

theorem status_none {t : Trouble} (ht : Honest t) {vms : List Creation.VM} (h : Creation.SaysNone (Lifecycle.statusOf t vms)) : vms = [] := by
  obtain ⟨text, resp, code, m, h2, h3, h4⟩ := h
  have no : ∀ tx, t.status = some tx ∨ t.uninit = some tx → tx ≠ text := by
    rintro tx hx rfl
    rcases h4 with rfl | rfl
    · exact (ht _ hx m).1 h3
    · exact (ht _ hx m).2 h3
  unfold Lifecycle.statusOf at h2
  cases hs : t.status with
  | some tx => rw [hs] at h2; cases h2; exact absurd rfl (no _ (.inl hs))
  | none =>
    rw [hs] at h2
    cases vms with
    | nil => rfl
    | cons x l =>
      dsimp only at h2
      cases hu : t.uninit with
      | some tx => rw [hu] at h2; cases h2; exact absurd rfl (no _ (.inr hu))
      | none => rw [hu] at h2; cases h2

theorem status_some {t : Trouble} {vms : List Creation.VM} {n p : String}
    (h : Lifecycle.statusOf t vms = .ok n p ∨ ∃ tx, Lifecycle.statusOf t vms = .err tx (some (n, p))) : ∃ x l, vms = x :: l ∧ x.node = n ∧ x.pid = p := by
  unfold Lifecycle.statusOf at h
  cases hs : t.status with
  | some tx => rw [hs] at h; rcases h with h | ⟨_, h⟩ <;> cases h
  | none =>
    rw [hs] at h
    cases vms with
    | nil => rcases h with h | ⟨_, h⟩ <;> cases h
    | cons x l =>
      dsimp only at h
      cases hu : t.uninit with
      | some tx => rw [hu] at h; rcases h with h | ⟨_, h⟩ <;> cases h; exact ⟨x, l, rfl, rfl, rfl⟩
      | none => rw [hu] at h; rcases h with h | ⟨_, h⟩ <;> cases h; exact ⟨x, l, rfl, rfl, rfl⟩

theorem delivered_mem {e : Lifecycle.Env} {t : Trouble} {vm y : Creation.VM} {v : Lifecycle.Obj} (h : y ∈ delivered e t vm v) : y = vm := by
  unfold delivered at h
  split at h
  · split at h
    · exact List.mem_singleton.1 h
    · cases h
  · split at h
    · cases h
    · exact List.mem_singleton.1 h

theorem delivered_length (e : Lifecycle.Env) (t : Trouble) (vm : Creation.VM) (v : Lifecycle.Obj) : (delivered e t vm v).length ≤ 1 := by
  unfold delivered
  repeat' split
  all_goals simp

/-- what happens to the object and its VMs in the part of a run that creates VMs -/
theorem reconcile_clear {e : Lifecycle.Env} {t : Trouble} {vm : Creation.VM} {vms : List Creation.VM} {v : Lifecycle.Obj} (ht : Honest t) (hp : ProperVM vm)
    (h : Clear vms v) {c : Creation.Env} (hc : c = { (troubled e t vm vms).c with health := none }) {o : Creation.Obj}
    (ho : o = (Creation.reconcile c v.toObj).wrote.getD v.toObj) :
    Clear (if Creation.creates c v.toObj then delivered e t vm v ++ vms else vms) { v with toObj := o } ∧ o.name = v.name ∧ o.deleting = v.deleting ∧
      (o.finalizer = false → v.finalizer = false) := by
  have hstat : c.status = Lifecycle.statusOf t vms := by rw [hc]; rfl
  have hcr : Creation.creates c v.toObj = true → vms = [] ∧ v.node = none := by
    intro h
    obtain ⟨h1, h2⟩ := Creation.C26_creates_only_if_none _ _ h
    rw [hstat] at h2
    exact ⟨status_none ht h2, h1⟩
  -- the object does not record a VM in this run
  have plain : ∀ o : Creation.Obj, o.node = v.node → o.pid = v.pid → o.prio = v.prio → (v.finalizer = true → o.finalizer = true) →
      Clear (if Creation.creates c v.toObj then delivered e t vm v ++ vms else vms) { v with toObj := o } := by
    intro o h1 h2 h3 h4
    cases hb : Creation.creates c v.toObj with
    | true =>
      obtain ⟨rfl, hn⟩ := hcr hb
      rw [if_pos rfl, List.append_nil]
      rcases h with h | ⟨x, h, _⟩
      · refine .inl ⟨h1.trans hn, h2.trans h.2.1, delivered_length .., fun y hy => ?_⟩
        rw [delivered_mem hy]; exact ⟨hp.1, hp.2.1⟩
      · cases h
    | false =>
      rw [if_neg (by simp)]
      rcases h with h | ⟨x, rfl, hf, a1, a2, a3, a4, a5⟩
      · exact .inl ⟨h1.trans h.1, h2.trans h.2.1, h.2.2⟩
      · exact .inr ⟨x, rfl, h4 hf, h1.trans a1, h2.trans a2, a3, a4, by rw [show ({ v with toObj := o } : Lifecycle.Obj).prio = v.prio from h3]; exact a5⟩
  cases hw : (Creation.reconcile c v.toObj).wrote with
  | none =>
    rw [hw] at ho
    subst ho
    exact ⟨plain _ rfl rfl rfl id, rfl, rfl, id⟩
  | some o' =>
    rw [hw] at ho
    rw [show o = o' from ho]
    rcases reconcile_shaped (clear_needs h) hw with ⟨hf, rfl⟩ | ⟨hf, s, rfl⟩ | ⟨hf, hn, n, p, s, rfl, hs⟩
    · exact ⟨plain _ rfl rfl rfl fun _ => rfl, rfl, rfl, nofun⟩
    · exact ⟨plain _ rfl rfl rfl id, rfl, rfl, id⟩
    · refine ⟨.inr ?_, rfl, rfl, id⟩
      have hu : Unrecorded vms v := by
        rcases h with h | h
        · exact h
        · rw [Lifecycle.recorded_needs h] at hn; cases hn
      have known : ∀ x : Creation.VM, (if Creation.creates c v.toObj then delivered e t vm v ++ vms else vms) = [x] → x.node = n → x.pid = p →
          x.node ≠ "" → x.pid ≠ "" → Recorded (if Creation.creates c v.toObj then delivered e t vm v ++ vms else vms)
            { v with toObj := { Creation.labelled v.toObj n p with st := s } } := by
        intro x h1 h2 h3 h4 h5
        exact ⟨x, h1, hf, by rw [h2]; rfl, by rw [h3]; rfl, h4, h5, Creation.prio_set v.toObj n p⟩
      rw [← or_assoc] at hs
      rcases hs with hs | ⟨ha, hcreate, hstale⟩
      · rw [hstat] at hs
        obtain ⟨x, l, rfl, h2, h3⟩ := status_some hs
        have hb : Creation.creates c v.toObj = false := by
          cases hb : Creation.creates c v.toObj with
          | false => rfl
          | true => exact absurd (hcr hb).1 (by simp)
        have hl : l = [] := by
          have := hu.2.2.1
          cases l with
          | nil => rfl
          | cons _ _ => simp at this
        subst hl
        have hx := hu.2.2.2 x (by simp)
        exact known x (by rw [hb, if_neg (by simp)]) h2 h3 hx.1 hx.2
      · obtain ⟨rfl, _⟩ := hcr ha
        have hcreate : Lifecycle.createOf t vm = .ok n p := by rw [hc] at hcreate; exact hcreate
        have hstale : ¬ (n ∈ e.c.nodes ∧ n ≠ v.name) := by rw [hc] at hstale; exact hstale
        unfold Lifecycle.createOf at hcreate
        cases hcreate' : t.create with
        | some q => rw [hcreate'] at hcreate; cases hcreate
        | none =>
          rw [hcreate'] at hcreate
          cases hcreate
          refine known vm ?_ rfl rfl hp.1 hp.2.1
          rw [ha, if_pos rfl, List.append_nil]
          unfold delivered
          rw [hcreate']
          dsimp only
          rw [if_neg]
          rintro ⟨k1, k2, _⟩
          exact hstale ⟨k1, k2⟩

/-- the conditions of a node have different types -/
def DistinctTypes (e : Lifecycle.Env) : Prop := ∀ n, e.node = .found n → (n.conds.map (·.type)).Nodup

theorem check_conds {e : Lifecycle.Env} {v : Lifecycle.Obj} (hd : DistinctTypes e) (hv : (v.conds.map (·.type)).Nodup) {now : Int} {p : Option Health.Phase}
    {conds : List Conditions.Cond} {b : Bool} (h : Health.check now (Lifecycle.asHealth v) e.node = .status p conds b) : (conds.map (·.type)).Nodup := by
  have ht : ∀ {p conds b}, Health.timeouts now (Lifecycle.asHealth v) = .status p conds b → (conds.map (·.type)).Nodup := by
    intro p conds b h
    unfold Health.timeouts at h
    split at h
    · split at h
      · cases h; exact hv
      · cases h
    · split at h
      · split at h
        · cases h
        · cases h
      · cases h
  unfold Health.check at h
  split at h
  · cases h
  · split at h
    · cases h; exact hv
    · exact ht h
  · rename_i n hn
    have hseen : ((Health.seen (Lifecycle.asHealth v) n).map (·.type)).Nodup := by
      unfold Health.seen
      split
      · exact hd n hn
      · exact hv
    split at h
    · split at h
      · cases h; exact hseen
      · split at h
        · cases h; exact hseen
        · exact ht h
    · split at h
      · cases h; exact hseen
      · split at h
        · cases h; exact hseen
        · exact ht h

theorem clear_write {vms : List Creation.VM} {v : Lifecycle.Obj} (h : Clear vms v) (e : Lifecycle.Env) (p : Option Health.Phase) (conds : List Conditions.Cond) :
    Clear vms (Lifecycle.healthWrite e v p conds) ∧ (Lifecycle.healthWrite e v p conds).name = v.name ∧
    (Lifecycle.healthWrite e v p conds).conds = conds ∧ (Lifecycle.healthWrite e v p conds).finalizer = v.finalizer := by
  cases p <;> exact ⟨h, rfl, rfl, rfl⟩

/-- a disturbed run of the machine controller keeps a machine and its VMs in order -/
theorem rough_clear {e : Lifecycle.Env} {t : Trouble} {vm : Creation.VM} {vms : List Creation.VM} {v : Lifecycle.Obj} (ht : Honest t) (hp : ProperVM vm)
    (hd : DistinctTypes e) (hv : (v.conds.map (·.type)).Nodup) (h : Clear vms v) :
    Clear (rough e t vm (vms, v)).1 (rough e t vm (vms, v)).2 ∧ (rough e t vm (vms, v)).2.name = v.name ∧
    (rough e t vm (vms, v)).2.deleting = v.deleting ∧ ((rough e t vm (vms, v)).2.conds.map (·.type)).Nodup ∧
    ((rough e t vm (vms, v)).2.finalizer = false → v.finalizer = false) := by
  have viaRest : ends (troubled e t vm vms) v = false → Lifecycle.run (troubled e t vm vms) v = Lifecycle.rest (troubled e t vm vms) v →
      rough e t vm (vms, v) = (if Creation.creates { (troubled e t vm vms).c with health := none } v.toObj then delivered e t vm v ++ vms else vms,
        { v with toObj := (Creation.reconcile { (troubled e t vm vms).c with health := none } v.toObj).wrote.getD v.toObj }) := by
    intro he hr
    unfold rough Lifecycle.asks
    dsimp only
    rw [he, hr]
    unfold Lifecycle.rest
    cases (Creation.reconcile { (troubled e t vm vms).c with health := none } v.toObj).wrote <;> rfl
  have done : ends (troubled e t vm vms) v = false → Lifecycle.run (troubled e t vm vms) v = Lifecycle.rest (troubled e t vm vms) v →
      Clear (rough e t vm (vms, v)).1 (rough e t vm (vms, v)).2 ∧ (rough e t vm (vms, v)).2.name = v.name ∧
      (rough e t vm (vms, v)).2.deleting = v.deleting ∧ ((rough e t vm (vms, v)).2.conds.map (·.type)).Nodup ∧
      ((rough e t vm (vms, v)).2.finalizer = false → v.finalizer = false) := by
    intro he hr
    rw [viaRest he hr]
    obtain ⟨a, b, c, d⟩ := reconcile_clear (e := e) ht hp h rfl rfl
    exact ⟨a, b, c, hv, d⟩
  have ended : ∀ r, ends (troubled e t vm vms) v = true → Lifecycle.run (troubled e t vm vms) v = r →
      (r = none ∨ ∃ p conds, r = some (Lifecycle.healthWrite (troubled e t vm vms) v p conds) ∧ (conds.map (·.type)).Nodup) →
      Clear (rough e t vm (vms, v)).1 (rough e t vm (vms, v)).2 ∧ (rough e t vm (vms, v)).2.name = v.name ∧
      (rough e t vm (vms, v)).2.deleting = v.deleting ∧ ((rough e t vm (vms, v)).2.conds.map (·.type)).Nodup ∧
      ((rough e t vm (vms, v)).2.finalizer = false → v.finalizer = false) := by
    intro r he hr hw
    have : rough e t vm (vms, v) = (vms, r.getD v) := by
      unfold rough Lifecycle.asks
      dsimp only
      rw [he, hr]; rfl
    rw [this]
    rcases hw with rfl | ⟨p, conds, rfl, hn⟩
    · exact ⟨h, rfl, rfl, hv, id⟩
    · obtain ⟨a, b, c, d⟩ := clear_write h (troubled e t vm vms) p conds
      refine ⟨a, b, (Lifecycle.healthWrite_same _ v p conds).1, ?_, fun hf => ?_⟩
      · show ((Lifecycle.healthWrite (troubled e t vm vms) v p conds).conds.map (·.type)).Nodup
        rw [c]; exact hn
      · rw [← d]; exact hf
  by_cases hg : Lifecycle.gate (troubled e t vm vms) v = true ∧ v.node.getD "" ≠ "" ∧ v.st.phase ≠ .empty
  · have hends : ends (troubled e t vm vms) v = match Health.check (troubled e t vm vms).c.now (Lifecycle.asHealth v) (troubled e t vm vms).node with
        | .recheck => (troubled e t vm vms).sync
        | .nothing => (troubled e t vm vms).sync
        | _ => true := by
      unfold ends
      rw [decide_eq_true hg, Bool.true_and]
      cases Health.check (troubled e t vm vms).c.now (Lifecycle.asHealth v) (troubled e t vm vms).node <;> rfl
    have hrun : Lifecycle.run (troubled e t vm vms) v = match Health.check (troubled e t vm vms).c.now (Lifecycle.asHealth v) (troubled e t vm vms).node with
        | .error => none
        | .status p conds _ => if (troubled e t vm vms).healthRes = .ok then some (Lifecycle.healthWrite (troubled e t vm vms) v p conds) else none
        | .tryFail => if (troubled e t vm vms).mark then some (Lifecycle.healthWrite (troubled e t vm vms) v (some .failed) v.conds) else none
        | .recheck => if (troubled e t vm vms).sync then none else Lifecycle.rest (troubled e t vm vms) v
        | .nothing => if (troubled e t vm vms).sync then none else Lifecycle.rest (troubled e t vm vms) v := by
      unfold Lifecycle.run
      rw [if_pos hg]
      cases Health.check (troubled e t vm vms).c.now (Lifecycle.asHealth v) (troubled e t vm vms).node <;> rfl
    cases hc : Health.check (troubled e t vm vms).c.now (Lifecycle.asHealth v) (troubled e t vm vms).node with
    | error => rw [hc] at hends hrun; exact ended _ hends hrun (.inl rfl)
    | status p conds b =>
      rw [hc] at hends hrun
      refine ended _ hends hrun ?_
      dsimp only
      split
      · exact .inr ⟨p, conds, rfl, check_conds hd hv (show Health.check (troubled e t vm vms).c.now (Lifecycle.asHealth v) e.node = _ from hc)⟩
      · exact .inl rfl
    | tryFail =>
      rw [hc] at hends hrun
      refine ended _ hends hrun ?_
      dsimp only
      split
      · exact .inr ⟨_, _, rfl, hv⟩
      · exact .inl rfl
    | recheck =>
      rw [hc] at hends hrun
      dsimp only at hends hrun
      cases hsy : (troubled e t vm vms).sync with
      | true => rw [hsy] at hends hrun; exact ended _ hends hrun (.inl rfl)
      | false => rw [hsy] at hends hrun; exact done hends hrun
    | nothing =>
      rw [hc] at hends hrun
      dsimp only at hends hrun
      cases hsy : (troubled e t vm vms).sync with
      | true => rw [hsy] at hends hrun; exact ended _ hends hrun (.inl rfl)
      | false => rw [hsy] at hends hrun; exact done hends hrun
  · exact done (by unfold ends; rw [decide_eq_false hg]; rfl) (by unfold Lifecycle.run; rw [if_neg hg])

/-! ### The invariant of disturbed executions -/

/-- A machine in any phase, with or without a VM, as in `Fleet.Ok`; it may also be called terminating without being deleted. -/
def Fair : M → Prop
  | .live vms v _ => NameLike v.name ∧ v.deleting = false ∧ (v.conds.map (·.type)).Nodup ∧
      (v.st.phase = .terminating → Termination.decode v.st.desc = none) ∧ (v.finalizer = false → vms = []) ∧ (∀ y ∈ vms, NameLike y.node) ∧ Clear vms v
  | .dying vms t _ _ _ => Termination.Terminating t ∧ (4 ≤ Termination.reached t → vms = [])

/-- a population of machines with different names; no VM is left behind -/
structure Start (s : Fleet.Fleet) : Prop where
  fair : ∀ m ∈ s.ms, Fair m
  names : (s.ms.map M.name).Nodup
  orphans : s.orphans = []

/-- a machine as it is created, by the machine set controller or by a user -/
def Fresh (m : M) : Prop := ∃ v x, m = .live [] v x ∧ Lifecycle.New v ∧ v.finalizer = false ∧ NameLike v.name

/-- One disturbed run of one of the controllers, or something that a user does. -/
inductive Step (s : Fleet.Fleet) : Fleet.Fleet → Prop
  /-- the machine set controller, a user or the safety controller does something to each machine, and creates machines -/
  | others (now : Int) (deed : M → Fleet.Deed) (new : List M) : (∀ m ∈ new, Fresh m) → ((s.ms ++ new).map M.name).Nodup →
      Step s (s.after (fun m => (deed m).effect now m) new)
  /-- the machine controller -/
  | machine (n : String) (e : Lifecycle.Env) (t : Trouble) (vm : Creation.VM) : Honest t → ProperVM vm → DistinctTypes e →
      Step s (s.after (Fleet.roughRun n e t vm) [])
  /-- the termination -/
  | term (n : String) (e : Termination.Env) (landed gone : Bool) : (∀ n, Termination.nodeName e = .ok n → NameLike n) →
      Step s (s.after (Fleet.roughTerm n e landed gone) [])

/-- executions -/
inductive Reach (s0 : Fleet.Fleet) : Fleet.Fleet → Prop
  | refl : Reach s0 s0
  | step {s s' : Fleet.Fleet} : Reach s0 s → Step s s' → Reach s0 s'

theorem announce_decode : Termination.decode "Deleting machine from cloud provider" = none := Fleet.announced_decode

theorem clear_node {vms : List Creation.VM} {v : Lifecycle.Obj} (h : Clear vms v) (hv : ∀ y ∈ vms, NameLike y.node) : NameLike (v.node.getD "") := by
  obtain ⟨k, _, h⟩ := clear_left h
  exact Fleet.left_node h hv

/-- a write that changes only the status -/
theorem clear_status {vms : List Creation.VM} {v : Lifecycle.Obj} (h : Clear vms v) (s : MStatus) : Clear vms { v with st := s } := by
  rcases h with h | h
  · exact .inl h
  · exact .inr h

theorem kill_fair (now : Int) {m : M} (h : Fair m) :
    (∀ m', Fleet.kill now m = some m' → m'.name = m.name ∧ Fair m') ∧ (Fleet.kill now m = none → m.vms = []) := by
  cases m with
  | dying vms t p c tr => exact ⟨fun m' hk => (by cases hk; exact ⟨rfl, h⟩), fun hk => (by cases hk)⟩
  | live vms v x =>
    obtain ⟨h1, h2, h3, h4, h5, h6, h7⟩ := h
    unfold Fleet.kill
    dsimp only
    split
    · rename_i hf
      refine ⟨fun m' hk => ?_, fun hk => (by cases hk)⟩
      cases hk
      refine ⟨rfl, ⟨hf, by simp [Fleet.announced], h1, clear_node h7 h6⟩, fun hr => ?_⟩
      exfalso
      revert hr
      unfold Termination.reached Fleet.announced
      dsimp only
      rw [if_pos rfl, announce_decode]
      decide
    · rename_i hf
      exact ⟨fun _ hk => (by cases hk), fun _ => h5 (by simpa using hf)⟩

theorem request_fair (now : Int) {m : M} (h : Fair m) :
    (∀ m', Teardown.request now m = some m' → m'.name = m.name ∧ Fair m') ∧ (Teardown.request now m = none → m.vms = []) := by
  cases m with
  | dying vms t p c tr => exact ⟨fun m' hk => (by cases hk; exact ⟨rfl, h⟩), fun hk => (by cases hk)⟩
  | live vms v x =>
    obtain ⟨h1, h2, h3, h4, h5, h6, h7⟩ := h
    unfold Teardown.request
    dsimp only
    split
    · rename_i hf
      refine ⟨fun m' hk => ?_, fun hk => (by cases hk)⟩
      cases hk
      refine ⟨rfl, ⟨hf, by simp [Fleet.announced], h1, clear_node h7 h6⟩, fun hr => ?_⟩
      exfalso
      revert hr
      rw [Termination.reached_none (o := { Fleet.announced now v x with st := v.st }) h4]
      decide
    · rename_i hf
      exact ⟨fun _ hk => (by cases hk), fun _ => h5 (by simpa using hf)⟩

theorem reached_zero {t : Termination.Obj} (h : t.st.phase = .terminating → Termination.decode t.st.desc = none) : ¬ 4 ≤ Termination.reached t := by
  rw [Termination.reached_none h]; decide

theorem deed_fair (now : Int) (d : Fleet.Deed) {m : M} (h : Fair m) :
    (∀ m', d.effect now m = some m' → m'.name = m.name ∧ Fair m') ∧ (d.effect now m = none → m.vms = []) := by
  cases d with
  | none => exact ⟨fun m' hk => (by cases hk; exact ⟨rfl, h⟩), fun hk => (by cases hk)⟩
  | kill => exact kill_fair now h
  | request => exact request_fair now h
  | announce =>
    refine ⟨fun m' hk => ?_, fun hk => (by cases hk)⟩
    cases hk
    cases m with
    | live vms v x =>
      obtain ⟨h1, h2, h3, h4, h5, h6, h7⟩ := h
      exact ⟨rfl, h1, h2, h3, fun _ => announce_decode, h5, h6, clear_status h7 _⟩
    | dying vms t p c tr => exact ⟨rfl, ⟨h.1.fin, h.1.del, h.1.name, h.1.node⟩, fun hr => absurd hr (reached_zero fun _ => announce_decode)⟩
  | reset =>
    cases m with
    | live vms v x =>
      refine ⟨fun m' hk => ?_, fun hk => (by cases hk)⟩
      cases hk
      obtain ⟨h1, h2, h3, h4, h5, h6, h7⟩ := h
      exact ⟨rfl, h1, h2, h3, fun hk => absurd hk (show ¬ (Phase.running = .terminating) by decide), h5, h6, clear_status h7 _⟩
    | dying vms t p c tr =>
      refine ⟨fun m' hk => ?_, fun hk => (by cases hk)⟩
      cases hk
      exact ⟨rfl, ⟨h.1.fin, h.1.del, h.1.name, h.1.node⟩, fun hr => absurd hr (reached_zero fun hk => absurd hk (show ¬ (Phase.running = .terminating) by decide))⟩
  | edit p x c hl b =>
    cases m with
    | live vms v x' =>
      refine ⟨fun m' hk => ?_, fun hk => (by cases hk)⟩
      cases hk
      obtain ⟨h1, h2, h3, h4, h5, h6, h7⟩ := h
      refine ⟨rfl, h1, h2, h3, h4, h5, h6, ?_⟩
      rcases h7 with h | ⟨y, a1, a2, a3, a4, a5, a6, _⟩
      · exact .inl h
      · exact .inr ⟨y, a1, a2, a3, a4, a5, a6, by simp⟩
    | dying vms t p c tr => exact ⟨fun m' hk => (by cases hk; exact ⟨rfl, h⟩), fun hk => (by cases hk)⟩

theorem asks_vms {e : Lifecycle.Env} {v : Lifecycle.Obj} (h : Lifecycle.asks e v = true) : v.finalizer = true := Lifecycle.asks_finalizer h

theorem rough_fair {n : String} {e : Lifecycle.Env} {t : Trouble} {vm : Creation.VM} (ht : Honest t) (hp : ProperVM vm) (hd : DistinctTypes e) {m : M} (h : Fair m) :
    ∃ m', Fleet.roughRun n e t vm m = some m' ∧ m'.name = m.name ∧ Fair m' := by
  cases m with
  | dying vms t p c tr => exact ⟨_, rfl, rfl, h⟩
  | live vms v x =>
    unfold Fleet.roughRun
    dsimp only
    split
    · refine ⟨_, rfl, ?_⟩
      obtain ⟨h1, h2, h3, h4, h5, h6, h7⟩ := h
      obtain ⟨a1, a2, a3, a4, a5⟩ := rough_clear (e := e) ht hp hd h3 h7
      refine ⟨a2, by rw [a2]; exact h1, by rw [a3]; exact h2, a4, fun hph => ?_, fun hf => ?_, fun y hy => ?_, a1⟩
      · have hrun : (rough e t vm (vms, v)).2 = (Lifecycle.run (troubled e t vm vms) v).getD v := rfl
        rw [hrun] at hph ⊢
        cases hr : Lifecycle.run (troubled e t vm vms) v with
        | none => rw [hr] at hph; exact h4 hph
        | some o => rw [hr] at hph; exact Lifecycle.run_desc hr h4 hph
      · have hf' := a5 hf
        have hvms : (rough e t vm (vms, v)).1 = if Lifecycle.asks (troubled e t vm vms) v then delivered e t vm v ++ vms else vms := rfl
        rw [hvms]
        cases ha : Lifecycle.asks (troubled e t vm vms) v with
        | true => rw [asks_vms ha] at hf'; cases hf'
        | false => rw [if_neg (by simp)]; exact h5 hf'
      · have hvms : (rough e t vm (vms, v)).1 = if Lifecycle.asks (troubled e t vm vms) v then delivered e t vm v ++ vms else vms := rfl
        rw [hvms] at hy
        split at hy
        · rcases List.mem_append.1 hy with hy | hy
          · rw [delivered_mem hy]; exact hp.2.2
          · exact h6 y hy
        · exact h6 y hy
    · exact ⟨_, rfl, rfl, h⟩

theorem labelOf_name {e : Termination.Env} (he : ∀ n, Termination.nodeName e = .ok n → NameLike n) {t : Termination.Obj} {n : String}
    (h : Termination.labelOf e t = some n) : NameLike n := by
  unfold Termination.labelOf at h
  split at h
  · unfold Termination.labelWrite at h
    split at h
    · cases h
    · split at h
      · cases h; rename_i hn; exact he _ hn
      · cases h
  · cases h

/-- what a run of the termination keeps, whatever fails -/
theorem term_kept {e : Termination.Env} (he : ∀ n, Termination.nodeName e = .ok n → NameLike n) {t : Termination.Obj} (ht : Termination.Terminating t)
    (hf : (Termination.run e t).finalizer = true) : Termination.Terminating (Termination.run e t) := by
  have hafter : Termination.run e t = Termination.run.afterFlow e t → Termination.Terminating (Termination.run e t) := by
    intro h
    rw [h] at hf ⊢
    unfold Termination.run.afterFlow at hf ⊢
    split
    · exact ht
    · rename_i wr hw
      rw [hw] at hf
      dsimp only at hf
      cases ha : Termination.applyWrite e t wr with
      | none => exact ht
      | some o =>
        rw [ha] at hf
        cases wr with
        | dropFinalizer => rw [Termination.applyWrite] at ha; cases ha; cases hf
        | status b new =>
          cases b with
          | false => rw [Termination.applyWrite] at ha; cases ha; exact ⟨ht.fin, ht.del, ht.name, ht.node⟩
          | true =>
            rw [Termination.applyWrite] at ha
            split at ha
            · cases ha
            · cases ha; exact ⟨ht.fin, ht.del, ht.name, ht.node⟩
  cases hc : e.classOk with
  | false =>
    have h : Termination.run e t = t := by unfold Termination.run; rw [if_pos (by simp [hc])]
    rw [h]; exact ht
  | true =>
    cases hl : Termination.labelOf e t with
    | none => exact hafter (by unfold Termination.run; rw [if_neg (by simp [hc]), hl])
    | some n =>
      by_cases hn : n ≠ t.node
      · have h : Termination.run e t = { t with node := n } := by
          unfold Termination.run; rw [if_neg (by simp [hc]), hl]; dsimp only; rw [if_pos hn]
        rw [h]
        exact ⟨ht.fin, ht.del, ht.name, labelOf_name he hl⟩
      · exact hafter (by unfold Termination.run; rw [if_neg (by simp [hc]), hl]; dsimp only; rw [if_neg hn])

theorem term_fair {n : String} {e : Termination.Env} {landed gone : Bool} (he : ∀ n, Termination.nodeName e = .ok n → NameLike n) {m : M} (h : Fair m) :
    (∀ m', Fleet.roughTerm n e landed gone m = some m' → m'.name = m.name ∧ Fair m') ∧ (Fleet.roughTerm n e landed gone m = none → m.vms = []) := by
  cases m with
  | live vms v x => exact ⟨fun m' hk => (by cases hk; exact ⟨rfl, h⟩), fun hk => (by cases hk)⟩
  | dying vms t p c tr =>
    have gone_vms : ∀ t', (4 ≤ Termination.reached t' → 4 ≤ Termination.reached t ∨ (e.classOk && (Termination.flow e t).events.any Fleet.confirms) = true) →
        4 ≤ Termination.reached t' → (if gone then [] else Fleet.vmsAfter e t vms) = [] := by
      intro t' h1 h2
      split
      · rfl
      · unfold Fleet.vmsAfter
        split
        · rfl
        · rename_i hno
          rcases h1 h2 with h3 | h3
          · exact h.2 h3
          · exact absurd h3 hno
    unfold Fleet.roughTerm
    dsimp only
    split
    · split
      · split
        · rename_i hf
          refine ⟨fun m' hk => ?_, fun hk => (by cases hk)⟩
          cases hk
          exact ⟨Fleet.term_name e t, term_kept he h.1 hf, gone_vms _ Fleet.term_reached⟩
        · rename_i hf
          exact ⟨fun _ hk => (by cases hk), fun _ => h.2 (Fleet.term_fin h.1.fin (by simpa using hf))⟩
      · refine ⟨fun m' hk => ?_, fun hk => (by cases hk)⟩
        cases hk
        exact ⟨rfl, h.1, gone_vms _ .inl⟩
    · exact ⟨fun m' hk => (by cases hk; exact ⟨rfl, h⟩), fun hk => (by cases hk)⟩

theorem fresh_fair {m : M} (h : Fresh m) : Fair m := by
  obtain ⟨v, x, rfl, ⟨h1, h2, h3, h4, h5⟩, h6, h7⟩ := h
  exact ⟨h7, h5, by rw [h2]; simp, by rw [h1]; simp, fun _ => rfl, by simp, .inl ⟨h3, h4, by simp, by simp⟩⟩

theorem after_start {s : Fleet.Fleet} (hs : Start s) {f : M → Option M} {new : List M}
    (hf : ∀ m ∈ s.ms, (∀ m', f m = some m' → m'.name = m.name ∧ Fair m') ∧ (f m = none → m.vms = [])) (hn : ∀ m ∈ new, Fair m)
    (hd : ((s.ms ++ new).map M.name).Nodup) : Start (s.after f new) := by
  refine ⟨fun m hm => ?_, Fleet.after_names (fun m hm m' h => ((hf m hm).1 m' h).1) hd, Fleet.after_orphans hs.orphans fun m hm h => (hf m hm).2 h⟩
  rcases Fleet.after_mem hm with ⟨a, ha, h⟩ | h
  · exact ((hf a ha).1 m h).2
  · exact hn m h

/-- every disturbed step keeps the population in order -/
theorem step_start {s s' : Fleet.Fleet} (hs : Start s) (h : Step s s') : Start s' := by
  cases h with
  | others now deed new h1 h2 => exact after_start hs (fun m hm => deed_fair now (deed m) (hs.fair m hm)) (fun m hm => fresh_fair (h1 m hm)) h2
  | machine n e t vm h1 h2 h3 =>
    refine after_start hs (fun m hm => ?_) (by simp) (by rw [List.append_nil]; exact hs.names)
    obtain ⟨m', h4, h5, h6⟩ := rough_fair (n := n) (e := e) h1 h2 h3 (hs.fair m hm)
    rw [h4]
    exact ⟨fun m'' hk => (by cases hk; exact ⟨h5, h6⟩), fun hk => (by cases hk)⟩
  | term n e landed gone h1 => exact after_start hs (fun m hm => term_fair h1 (hs.fair m hm)) (by simp) (by rw [List.append_nil]; exact hs.names)

theorem reach_start {s0 s : Fleet.Fleet} (h0 : Start s0) (h : Reach s0 s) : Start s := by
  induction h with
  | refl => exact h0
  | step _ h ih => exact step_start ih h

/-- C116: However many calls fail, requests get lost or are refused, and runs stop half way: at any time there is at most one VM for a machine, no VM is without
its machine, and a machine object goes only when it has no VM. **Partial**: the provider must implement `GetMachineStatus` (`C116_unimplemented_false`), and the creation
and the termination of one machine must not overlap (`C61_vm_left_behind_false`). -/
theorem C116_no_vm_lost_partial (s0 s : Fleet.Fleet) (h0 : Start s0) (h : Reach s0 s) :
    s.orphans = [] ∧ (s.ms.map M.name).Nodup ∧ ∀ vms v x, .live vms v x ∈ s.ms → vms.length ≤ 1 := by
  have hs := reach_start h0 h
  refine ⟨hs.orphans, hs.names, fun vms v x hm => ?_⟩
  rcases (hs.fair _ hm).2.2.2.2.2.2 with h | ⟨y, rfl, _⟩
  · exact h.2.2.1
  · exact Nat.le_refl _

/-! ### Undisturbed runs after that -/

/-- called terminating, but not being deleted -/
def calls (m : M) : Bool := !m.isDying && decide ((Fleet.view m).phase = .terminating)

theorem start_of {s : Fleet.Fleet} (hs : Start s) (h : ∀ m ∈ s.ms, calls m = false) : Fleet.Start s := by
  refine ⟨fun m hm => ?_, hs.names, hs.orphans⟩
  have hf := hs.fair m hm
  cases m with
  | dying vms t p c tr => exact hf
  | live vms v x =>
    obtain ⟨h1, h2, h3, h4, h5, h6, h7⟩ := hf
    refine ⟨h1, h2, h3, fun hp => ?_, h5, h6, clear_left h7⟩
    have := h _ hm
    unfold calls Fleet.view at this
    simp [M.isDying, hp] at this

theorem live_fair {e : Lifecycle.Env} {vm : Creation.VM} {vms : List Creation.VM} {v : Lifecycle.Obj} {x : Fleet.Extra} (hg : Lifecycle.Good e vm v)
    (hnl : NameLike vm.node) (h : Fair (.live vms v x)) :
    Fair (.live (Lifecycle.live e vm (vms, v)).1 (Lifecycle.live e vm (vms, v)).2 x) ∧ (Lifecycle.live e vm (vms, v)).2.name = v.name := by
  obtain ⟨h1, h2, h3, h4, h5, h6, h7⟩ := h
  obtain ⟨k, hk, hl⟩ := clear_left h7
  obtain ⟨⟨j, hj, hl'⟩, s1, s2, s3, s4, s5, s6, s7⟩ := Lifecycle.live_left hg h2 h3 hl
  refine ⟨⟨by rw [s2]; exact h1, s1, s4, fun hp => ?_, fun hf => ?_, fun y hy => ?_, left_clear hl'⟩, s2⟩
  · have hrun : (Lifecycle.live e vm (vms, v)).2 = (Lifecycle.run (Lifecycle.truthful e vm vms) v).getD v := rfl
    rw [hrun] at hp ⊢
    cases hr : Lifecycle.run (Lifecycle.truthful e vm vms) v with
    | none => rw [hr] at hp; exact h4 hp
    | some o => rw [hr] at hp; exact Lifecycle.run_desc hr h4 hp
  · exfalso
    cases hl' with
    | bare _ _ => omega
    | unrecorded h _ => rw [h] at hf; cases hf
    | recorded h _ => obtain ⟨_, _, h, _⟩ := h; rw [h] at hf; cases hf
    | waiting h _ _ => obtain ⟨_, _, h, _⟩ := h; rw [h] at hf; cases hf
    | running h _ => obtain ⟨_, _, h, _⟩ := h; rw [h] at hf; cases hf
  · rcases Fleet.live_vms hy with h | h
    · exact h6 y h
    · rw [h]; exact hnl

theorem machine_of {s : Fleet.Fleet} (hs : Start s) {e : Lifecycle.Env} {vm : Creation.VM} {vms : List Creation.VM} {v : Lifecycle.Obj} {x : Fleet.Extra}
    (hm : .live vms v x ∈ s.ms) {m : M} (hmem : m ∈ s.ms) :
    (m = .live vms v x ∧ Fleet.machineRun v.name e vm m = some (.live (Lifecycle.live e vm (vms, v)).1 (Lifecycle.live e vm (vms, v)).2 x)) ∨
    ((m.name ≠ v.name ∨ m.isDying = true) ∧ Fleet.machineRun v.name e vm m = some m) := by
  cases m with
  | dying _ _ _ _ _ => exact .inr ⟨.inr rfl, rfl⟩
  | live vms' v' x' =>
    unfold Fleet.machineRun
    dsimp only
    split
    · rename_i heq
      cases Fleet.unique hs.names hmem hm heq
      exact .inl ⟨rfl, rfl⟩
    · rename_i hne
      exact .inr ⟨.inl hne, rfl⟩

theorem termRun_fair {n : String} {e : Termination.Env} (hc : Termination.Coop e) {m : M} (h : Fair m) :
    (∀ m', Fleet.termRun n e m = some m' → m'.name = m.name ∧ Fair m') ∧ (Fleet.termRun n e m = none → m.vms = []) := by
  cases m with
  | live vms v x => exact ⟨fun m' hk => (by cases hk; exact ⟨rfl, h⟩), fun hk => (by cases hk)⟩
  | dying vms t p c tr =>
    have hok : Fleet.Ok (.dying vms t p c tr) := h
    refine ⟨fun m' hk => ?_, fun hk => Fleet.termRun_none hok hk⟩
    obtain ⟨h1, h2⟩ := Fleet.termRun_ok hc hok hk
    refine ⟨h1, ?_⟩
    unfold Fleet.termRun at hk
    dsimp only at hk
    split at hk
    · split at hk
      · cases hk; exact h2
      · cases hk
    · cases hk; exact h

theorem setRun_fair {srt : List Machine → List Machine} {now : Int} {ms : MachineSet.MSet} {w : List M} {m : M} (h : Fair m) :
    (∀ m', Fleet.setRun srt now ms w m = some m' → m'.name = m.name ∧ Fair m') ∧ (Fleet.setRun srt now ms w m = none → m.vms = []) := by
  unfold Fleet.setRun
  split
  · exact kill_fair now h
  · exact ⟨fun m' hk => (by cases hk; exact ⟨rfl, h⟩), fun hk => (by cases hk)⟩

theorem quiet_start {ms : MachineSet.MSet} {s s' : Fleet.Fleet} {l : Fleet.Lab} (hs : Start s) (h : Fleet.Step ms s l s') : Start s' := by
  cases h with
  | set srt now new h1 h2 h3 h4 =>
    refine after_start hs (fun m hm => setRun_fair (hs.fair m hm)) (fun m hm => ?_) h4
    obtain ⟨v, x, a, b, c, d, _⟩ := h3 m hm
    exact fresh_fair ⟨v, x, a, b, c, d⟩
  | machine e vm vms v x h1 h2 h3 =>
    refine after_start hs (fun m hm => ?_) (by simp) (by rw [List.append_nil]; exact hs.names)
    obtain ⟨k1, k2⟩ := live_fair h2 h3 (hs.fair _ h1)
    rcases machine_of hs (e := e) (vm := vm) h1 hm with ⟨rfl, h⟩ | ⟨_, h⟩
    · rw [h]; exact ⟨fun m' hk => (by cases hk; exact ⟨k2, k1⟩), fun hk => (by cases hk)⟩
    · rw [h]; exact ⟨fun m' hk => (by cases hk; exact ⟨rfl, hs.fair m hm⟩), fun hk => (by cases hk)⟩
  | late e vms t p c tr h1 h2 h3 => exact after_start hs (fun m hm => termRun_fair h2 (hs.fair m hm)) (by simp) (by rw [List.append_nil]; exact hs.names)
  | early e vms t p c tr h1 h2 => exact after_start hs (fun m hm => termRun_fair h2 (hs.fair m hm)) (by simp) (by rw [List.append_nil]; exact hs.names)

theorem quiets_start {ms : MachineSet.MSet} {s s' : Fleet.Fleet} {ls : List Fleet.Lab} (hs : Start s) (h : Fleet.Steps ms s ls s') : Start s' := by
  induction h with
  | nil _ => exact hs
  | cons h _ ih => exact ih (quiet_start hs h)

theorem fresh_calls {m : M} (h : Fleet.Fresh m) : calls m = false := by
  obtain ⟨v, x, rfl, ⟨h1, _⟩, _⟩ := h
  unfold calls Fleet.view
  simp [h1]

theorem calls_live {m : M} (h : calls m = true) : ∃ vms v x, m = .live vms v x ∧ v.st.phase = .terminating := by
  cases m with
  | dying _ _ _ _ _ => cases h
  | live vms v x =>
    unfold calls Fleet.view at h
    simp [M.isDying] at h
    exact ⟨vms, v, x, rfl, h⟩

theorem set_calls {srt : List Machine → List Machine} {now : Int} {ms : MachineSet.MSet} {w : List M} {m m' : M} (h : Fleet.setRun srt now ms w m = some m')
    (hc : calls m' = true) : m' = m := by
  unfold Fleet.setRun at h
  split at h
  · obtain ⟨vms, v, x, rfl, _⟩ := calls_live hc
    have := Fleet.kill_dying h
    cases this
  · cases h; rfl

theorem term_calls {n : String} {e : Termination.Env} {m m' : M} (h : Fleet.termRun n e m = some m') (hc : calls m' = true) : m' = m := by
  obtain ⟨vms, v, x, rfl, _⟩ := calls_live hc
  cases m with
  | live _ _ _ => cases h; rfl
  | dying vms t p c tr =>
    unfold Fleet.termRun at h
    dsimp only at h
    split at h
    · split at h <;> cases h
    · cases h

/-- a machine that is called terminating was so before, and if it was served it has got on -/
def Was (s : Fleet.Fleet) (served : Prop) (m' : M) : Prop :=
  ∃ m ∈ s.ms, m.name = m'.name ∧ calls m = true ∧ ∀ b, (Fleet.Within m b → Fleet.Within m' b) ∧ (served → Fleet.Within m (b + 1) → Fleet.Within m' b)

theorem step_was {ms : MachineSet.MSet} {s s' : Fleet.Fleet} {l : Fleet.Lab} (hs : Start s) (h : Fleet.Step ms s l s') {m' : M} (hm' : m' ∈ s'.ms)
    (hc : calls m' = true) : Was s (l = .served m'.name) m' := by
  cases h with
  | set srt now new h1 h2 h3 h4 =>
    rcases Fleet.after_mem hm' with ⟨m, hm, h⟩ | h
    · cases set_calls h hc
      exact ⟨_, hm, rfl, hc, fun b => ⟨id, nofun⟩⟩
    · rw [fresh_calls (h3 m' h)] at hc; cases hc
  | machine e vm vms v x h1 h2 h3 =>
    rcases Fleet.after_mem hm' with ⟨m, hm, h⟩ | h
    · rcases machine_of hs (e := e) (vm := vm) h1 hm with ⟨rfl, h'⟩ | ⟨hne, h'⟩
      · rw [h'] at h
        cases h
        obtain ⟨a1, a2, a3, a4, a5, a6, a7⟩ := hs.fair _ hm
        obtain ⟨_, _, _, heq, hp⟩ := calls_live hc
        cases heq
        refine ⟨_, hm, ?_, ?_, fun b => ⟨?_, fun _ => ?_⟩⟩
        · obtain ⟨k, _, hl⟩ := clear_left a7
          exact (Lifecycle.live_left h2 a2 a3 hl).2.2.1.symm
        · obtain ⟨k, _, hl⟩ := clear_left a7
          obtain ⟨_, _, _, _, _, _, s6, _⟩ := Lifecycle.live_left h2 a2 a3 hl
          unfold calls Fleet.view
          rcases s6 with s6 | ⟨s6, _⟩ | s6
          · simp [M.isDying, ← s6, hp]
          · rw [hp] at s6; cases s6
          · rw [hp] at s6; cases s6
        · rintro ⟨k, hk, hl⟩
          obtain ⟨⟨j, hj, hl'⟩, _⟩ := Lifecycle.live_left h2 a2 a3 hl
          exact ⟨j, by omega, hl'⟩
        · rintro ⟨k, hk, hl⟩
          obtain ⟨⟨j, hj, hl'⟩, _⟩ := Lifecycle.live_left h2 a2 a3 hl
          exact ⟨j, by omega, hl'⟩
      · rw [h'] at h
        cases h
        refine ⟨_, hm, rfl, hc, fun b => ⟨id, fun heq => ?_⟩⟩
        injection heq with heq
        rcases hne with hne | hne
        · exact absurd heq.symm hne
        · obtain ⟨_, _, _, rfl, _⟩ := calls_live hc
          cases hne
    · cases h
  | late e vms t p c tr h1 h2 h3 =>
    rcases Fleet.after_mem hm' with ⟨m, hm, h⟩ | h
    · cases term_calls h hc
      refine ⟨_, hm, rfl, hc, fun b => ⟨id, fun heq => ?_⟩⟩
      injection heq with heq
      cases Fleet.unique hs.names h1 hm heq
      cases hc
    · cases h
  | early e vms t p c tr h1 h2 =>
    rcases Fleet.after_mem hm' with ⟨m, hm, h⟩ | h
    · cases term_calls h hc
      exact ⟨_, hm, rfl, hc, fun b => ⟨id, nofun⟩⟩
    · cases h

theorem steps_was {ms : MachineSet.MSet} {s s' : Fleet.Fleet} {ls : List Fleet.Lab} (hs : Start s) (h : Fleet.Steps ms s ls s') {m' : M} (hm' : m' ∈ s'.ms)
    (hc : calls m' = true) : Was s (.served m'.name ∈ ls) m' := by
  induction h with
  | nil _ => exact ⟨m', hm', rfl, hc, fun b => ⟨id, nofun⟩⟩
  | @cons s s1 s2 l ls h1 h2 ih =>
    obtain ⟨m1, hm1, a1, a2, a3⟩ := ih (quiet_start hs h1) hm'
    obtain ⟨m, hm, b1, b2, b3⟩ := step_was hs h1 hm1 a2
    refine ⟨m, hm, b1.trans a1, b2, fun b => ⟨fun h => (a3 b).1 ((b3 b).1 h), fun hserved h => ?_⟩⟩
    rcases List.mem_cons.1 hserved with h' | h'
    · exact (a3 b).1 ((b3 b).2 (by rw [← h', a1]) h)
    · exact (a3 b).2 h' ((b3 (b + 1)).1 h)

theorem epochs_was {ms : MachineSet.MSet} {n b : Nat} {s s' : Fleet.Fleet} (hs : Start s) (h : Fleet.Epochs ms n s s')
    (hw : ∀ m ∈ s.ms, calls m = true → Fleet.Within m (b + n)) : Start s' ∧ ∀ m ∈ s'.ms, calls m = true → Fleet.Within m b := by
  induction h with
  | zero _ => exact ⟨hs, hw⟩
  | @succ n s s1 s2 h1 _ ih =>
    obtain ⟨ls, h1, h2, h3⟩ := h1
    refine ih (quiets_start hs h1) fun m' hm' hc => ?_
    obtain ⟨m, hm, a1, a2, a3⟩ := steps_was hs h1 hm' hc
    refine (a3 (b + n)).2 ?_ (hw m hm a2)
    rw [← a1]
    refine h3 m hm m' hm' a1 ?_
    obtain ⟨_, _, _, rfl, _⟩ := calls_live a2
    obtain ⟨_, _, _, rfl, _⟩ := calls_live hc
    rfl

/-- after four epochs no machine is called terminating that is not being deleted -/
theorem four_epochs {ms : MachineSet.MSet} {s s' : Fleet.Fleet} (hs : Start s) (h : Fleet.Epochs ms 4 s s') : Fleet.Start s' := by
  obtain ⟨h1, h2⟩ := epochs_was (b := 0) hs h fun m hm hc => by
    obtain ⟨vms, v, x, rfl, _⟩ := calls_live hc
    exact clear_left (hs.fair _ hm).2.2.2.2.2.2
  refine start_of h1 fun m hm => ?_
  cases hc : calls m with
  | false => rfl
  | true =>
    have hw := h2 m hm hc
    obtain ⟨vms, v, x, rfl, hp⟩ := calls_live hc
    obtain ⟨k, hk, hl⟩ := hw
    cases hl with
    | running _ hr => rw [hp] at hr; cases hr
    | _ => omega

/-! ### How many machines there are meanwhile -/

/-- the number of machines called terminating that are not being deleted -/
def called (w : List M) : Nat := (w.filter calls).length

theorem called_le {f : M → Option M} : ∀ {w : List M}, (∀ m ∈ w, ∀ m', f m = some m' → calls m' = true → calls m = true) → called (w.filterMap f) ≤ called w
  | [], _ => Nat.le_refl _
  | a :: w, h => by
    have ih := called_le (f := f) (w := w) fun m hm => h m (List.mem_cons_of_mem _ hm)
    rw [List.filterMap_cons]
    unfold called at ih ⊢
    cases hf : f a with
    | none =>
      dsimp only
      rw [List.filter_cons]
      split
      · rw [List.length_cons]; omega
      · exact ih
    | some b =>
      dsimp only
      rw [List.filter_cons, List.filter_cons]
      cases hb : calls b with
      | true => rw [h a (by simp) b hf hb]; simpa using ih
      | false =>
        rw [if_neg (by simp)]
        split
        · rw [List.length_cons]; omega
        · exact ih

theorem called_append (a b : List M) : called (a ++ b) = called a + called b := by
  unfold called; rw [List.filter_append, List.length_append]

theorem called_fresh {l : List M} (h : ∀ m ∈ l, Fleet.Fresh m) : called l = 0 := by
  unfold called
  rw [List.filter_eq_nil_iff.2, List.length_nil]
  intro m hm
  rw [fresh_calls (h m hm)]; simp

theorem step_called {ms : MachineSet.MSet} {s s' : Fleet.Fleet} {l : Fleet.Lab} (hs : Start s) (h : Fleet.Step ms s l s') : called s'.ms ≤ called s.ms := by
  have old : ∀ {f : M → Option M}, (∀ m ∈ s.ms, ∀ m', f m = some m' → m' ∈ s'.ms) → (∀ m ∈ s.ms, ∀ m', f m = some m' → m'.name = m.name) →
      called (s.ms.filterMap f) ≤ called s.ms := by
    intro f h1 h2
    refine called_le fun m hm m' hf hc => ?_
    obtain ⟨m2, hm2, a1, a2, _⟩ := step_was hs h (h1 m hm m' hf) hc
    rw [h2 m hm m' hf] at a1
    rw [← Fleet.unique hs.names hm2 hm a1]; exact a2
  have mem : ∀ {f : M → Option M} {new : List M} {m m' : M}, m ∈ s.ms → f m = some m' → m' ∈ (s.after f new).ms := by
    intro f new m m' hm hf
    unfold Fleet.Fleet.after
    exact List.mem_append_left _ (List.mem_filterMap.2 ⟨m, hm, hf⟩)
  cases h with
  | set srt now new h1 h2 h3 h4 =>
    have := old (fun m hm m' hf => mem hm hf) (fun m hm m' hf => ((setRun_fair (hs.fair m hm)).1 m' hf).1)
    unfold Fleet.Fleet.after
    dsimp only
    rw [called_append, called_fresh h3]
    exact this
  | machine e vm vms v x h1 h2 h3 =>
    rw [Fleet.after_nil]
    refine old (fun m hm m' hf => mem hm hf) (fun m hm m' hf => ?_)
    rcases machine_of hs (e := e) (vm := vm) h1 hm with ⟨rfl, h⟩ | ⟨_, h⟩
    · rw [h] at hf; cases hf; exact (live_fair h2 h3 (hs.fair _ h1)).2
    · rw [h] at hf; cases hf; rfl
  | late e vms t p c tr h1 h2 h3 =>
    rw [Fleet.after_nil]
    exact old (fun m hm m' hf => mem hm hf) (fun m hm m' hf => ((termRun_fair h2 (hs.fair m hm)).1 m' hf).1)
  | early e vms t p c tr h1 h2 =>
    rw [Fleet.after_nil]
    exact old (fun m hm m' hf => mem hm hf) (fun m hm m' hf => ((termRun_fair h2 (hs.fair m hm)).1 m' hf).1)

/-- a living machine is stale, counted, or called terminating -/
theorem counted_or {m : M} (hd : m.isDying = false) (hs : MachineSet.isStale (Fleet.view m) = false) (hc : calls m = false) :
    MachineSet.isLive (Fleet.view m) = true := by
  cases m with
  | dying _ _ _ _ _ => cases hd
  | live vms v x =>
    unfold MachineSet.isLive
    rw [hs, Bool.not_false, Bool.true_and]
    unfold MachineSet.isStale at hs
    rw [Bool.or_eq_false_iff] at hs
    have h1 := hs.1
    unfold isMachineFailed Fleet.view at h1
    unfold calls Fleet.view M.isDying at hc
    unfold isMachineActive Fleet.view
    dsimp only at h1 hc ⊢
    cases hp : v.st.phase <;> simp_all

theorem filter_two {α : Type} {p q r : α → Bool} : ∀ {l : List α}, (∀ a ∈ l, p a = true → q a = true ∨ r a = true) →
    (l.filter p).length ≤ (l.filter q).length + (l.filter r).length
  | [], _ => Nat.le_refl _
  | a :: l, h => by
    have ih := filter_two (p := p) (q := q) (r := r) (l := l) fun x hx => h x (List.mem_cons_of_mem _ hx)
    have ha := h a (by simp)
    rw [List.filter_cons, List.filter_cons, List.filter_cons]
    cases hp : p a <;> cases hq : q a <;> cases hr : r a <;> simp_all <;> omega

theorem step_lives {ms : MachineSet.MSet} (hf : ms.freezeLabel ≠ "True") {s s' : Fleet.Fleet} {l : Fleet.Lab} (h : Fleet.Step ms s l s') :
    Fleet.lives s'.ms ≤ max (Fleet.lives s.ms) (Fleet.goal ms + called s.ms) := by
  cases h with
  | set srt now new h1 h2 h3 h4 =>
    cases hx : ms.deleting with
    | true => rw [Fleet.wiped_lives hx s h2]; omega
    | false =>
    rw [Fleet.lives_set _ _ _ _ _ h3, h2, (Fleet.planned srt h1 ms hf hx s.ms).1]
    have k1 : (s.ms.filter fun m => !m.isDying && !decide (m.name ∈ Fleet.targets (Fleet.plan srt ms s.ms))).length ≤
        (s.ms.filter fun m => MachineSet.isLive (Fleet.view m)).length + (s.ms.filter calls).length := by
      refine filter_two fun m hm h => ?_
      simp only [Bool.and_eq_true, Bool.not_eq_true', decide_eq_false_iff_not] at h
      cases hc : calls m with
      | true => exact .inr rfl
      | false =>
        refine .inl (counted_or h.1 ?_ hc)
        cases hst : MachineSet.isStale (Fleet.view m) with
        | false => rfl
        | true => exact absurd (Fleet.stale_target hm hst) h.2
    have k2 : (s.ms.filter fun m => !m.isDying && !decide (m.name ∈ Fleet.targets (Fleet.plan srt ms s.ms))).length ≤ Fleet.lives s.ms := by
      refine Fleet.filter_le fun m hm h => ?_
      simp only [Bool.and_eq_true] at h
      exact h.1
    unfold called
    omega
  | machine e vm vms v x h1 h2 h3 => rw [Fleet.machine_lives]; omega
  | late e vms t p c tr h1 h2 h3 => rw [Fleet.term_lives]; omega
  | early e vms t p c tr h1 h2 => rw [Fleet.term_lives]; omega

theorem steps_lives {ms : MachineSet.MSet} (hf : ms.freezeLabel ≠ "True") {s s' : Fleet.Fleet} {ls : List Fleet.Lab} (hs : Start s) (h : Fleet.Steps ms s ls s') :
    Fleet.lives s'.ms ≤ max (Fleet.lives s.ms) (Fleet.goal ms + called s.ms) ∧ called s'.ms ≤ called s.ms := by
  induction h with
  | nil _ => exact ⟨by omega, Nat.le_refl _⟩
  | cons h1 h2 ih =>
    obtain ⟨k1, k2⟩ := ih (quiet_start hs h1)
    have := step_lives hf h1
    have := step_called hs h1
    omega

theorem epochs_lives {ms : MachineSet.MSet} (hf : ms.freezeLabel ≠ "True") {n : Nat} {s s' : Fleet.Fleet} (hs : Start s) (h : Fleet.Epochs ms n s s') :
    Fleet.lives s'.ms ≤ max (Fleet.lives s.ms) (Fleet.goal ms + called s.ms) ∧ called s'.ms ≤ called s.ms := by
  induction h with
  | zero _ => exact ⟨by omega, Nat.le_refl _⟩
  | succ h1 _ ih =>
    obtain ⟨ls, h1, _⟩ := h1
    obtain ⟨k1, k2⟩ := ih (quiets_start hs h1)
    have := steps_lives hf hs h1
    omega

/-- C116: Whatever happened before – provider calls that failed with or without effect, writes and requests that were lost, refused or repeated, runs that stopped
half way, nodes that were unhealthy or missing, machines deleted, marked, edited or created by users, deletions announced but refused – once the controllers are left
undisturbed they make exactly the desired number of machines, all of them Running with exactly one VM each, with no machine being deleted left over and no VM without a
machine. It takes at most thirteen epochs, and two more for every hundred machines that there are or shall be. **Partial**: as `C116_no_vm_lost_partial`, and VMs must not
vanish by themselves while their nodes look healthy (`C116_vanished_false`). -/
theorem C116_recovers_partial (ms : MachineSet.MSet) (hf : ms.freezeLabel ≠ "True") (s0 s s' : Fleet.Fleet) (h0 : Start s0) (hr : Reach s0 s) (k n : Nat)
    (h1 : Fleet.goal ms ≤ 100 * k) (h2 : s.ms.length ≤ 100 * k) (hn : 2 * k + 13 ≤ n) (h : Fleet.Epochs ms n s s') :
    s'.ms.length = Fleet.goal ms ∧ (∀ m ∈ s'.ms, Fleet.Desired m) ∧ (s'.ms.map M.name).Nodup ∧ s'.orphans = [] := by
  have hs := reach_start h0 hr
  obtain ⟨r, rfl⟩ : ∃ r, n = 4 + r := ⟨n - 4, by omega⟩
  obtain ⟨s1, e1, e2⟩ := h.split
  have hlen : Fleet.lives s.ms ≤ s.ms.length ∧ called s.ms ≤ s.ms.length := ⟨List.length_filter_le _ _, List.length_filter_le _ _⟩
  have hl := (epochs_lives hf hs e1).1
  exact (Fleet.converges hf (four_epochs hs e1) (k := 2 * k) (by omega) (by omega) (by omega) e2).desired

/-! ### Such epochs can always be made -/

theorem serve {ms : MachineSet.MSet} {s : Fleet.Fleet} (hs : Start s) {m : M} (hm : m ∈ s.ms) :
    ∃ s', Fleet.Step ms s (.served m.name) s' ∧ ∀ m' ∈ s'.ms, m'.name ∈ s.ms.map M.name := by
  cases m with
  | live vms v x =>
    have hnl : NameLike "node" := by unfold NameLike; decide
    refine ⟨_, .machine Fleet.goodEnv ⟨"node", "prov:///vm"⟩ vms v x hm (Fleet.goodEnv_good v) hnl, fun m' hm' => ?_⟩
    rcases Fleet.after_mem hm' with ⟨m, hmm, h⟩ | h
    · rcases machine_of hs (e := Fleet.goodEnv) (vm := ⟨"node", "prov:///vm"⟩) hm hmm with ⟨rfl, h'⟩ | ⟨_, h'⟩
      · rw [h'] at h; cases h
        exact List.mem_map.2 ⟨_, hmm, (live_fair (Fleet.goodEnv_good v) hnl (hs.fair _ hm)).2.symm⟩
      · rw [h'] at h; cases h
        exact List.mem_map.2 ⟨_, hmm, rfl⟩
    · cases h
  | dying vms t p c tr =>
    refine ⟨_, .late (Fleet.coopEnv t) vms t p c tr hm (Fleet.coopEnv_coop t) (by show _ < t.st.opTime + tolerance + 1; omega), fun m' hm' => ?_⟩
    rcases Fleet.after_mem hm' with ⟨m, hmm, h⟩ | h
    · rw [((termRun_fair (Fleet.coopEnv_coop t) (hs.fair m hmm)).1 m' h).1]; exact List.mem_map.2 ⟨m, hmm, rfl⟩
    · cases h

theorem serve_all (ms : MachineSet.MSet) (ns : List String) : ∀ s : Fleet.Fleet, Start s → ∃ ls s', Fleet.Steps ms s ls s' ∧
    (∀ m' ∈ s'.ms, m'.name ∈ s.ms.map M.name) ∧ ∀ m' ∈ s'.ms, m'.name ∈ ns → .served m'.name ∈ ls := by
  induction ns with
  | nil => intro s _; exact ⟨[], s, .nil s, fun m' hm' => List.mem_map.2 ⟨m', hm', rfl⟩, fun _ _ h => absurd h List.not_mem_nil⟩
  | cons n ns ih =>
    intro s hs
    by_cases hn : n ∈ s.ms.map M.name
    · obtain ⟨m, hm, rfl⟩ := List.mem_map.1 hn
      obtain ⟨s1, h1, h2⟩ := serve (ms := ms) hs hm
      obtain ⟨ls, s2, h3, h4, h5⟩ := ih s1 (quiet_start hs h1)
      refine ⟨_, s2, .cons h1 h3, fun m' hm' => ?_, fun m' hm' hmem => ?_⟩
      · obtain ⟨m1, hm1, he⟩ := List.mem_map.1 (h4 m' hm')
        rw [← he]; exact h2 m1 hm1
      · rcases List.mem_cons.1 hmem with h | h
        · rw [h]; simp
        · exact List.mem_cons_of_mem _ (h5 m' hm' h)
    · obtain ⟨ls, s2, h3, h4, h5⟩ := ih s hs
      refine ⟨ls, s2, h3, h4, fun m' hm' hmem => ?_⟩
      rcases List.mem_cons.1 hmem with h | h
      · exact absurd (by rw [← h]; exact h4 m' hm') hn
      · exact h5 m' hm' h

/-- C116: the epochs that `C116_recovers_partial` speaks of can be made from every state that was reached. -/
theorem C116_possible (ms : MachineSet.MSet) (s0 s : Fleet.Fleet) (h0 : Start s0) (hr : Reach s0 s) (n : Nat) : ∃ s', Fleet.Epochs ms n s s' := by
  have hs := reach_start h0 hr
  clear h0 hr
  induction n generalizing s with
  | zero => exact ⟨s, .zero s⟩
  | succ n ih =>
    obtain ⟨new, h1, h2, h3⟩ := Fleet.fresh_names s.ms hs.names (Fleet.plan id ms s.ms).issued
    have hstep : Fleet.Step ms s .set _ := .set id 0 new (fun l => List.Perm.refl l) h1 h2 h3
    have hs1 := quiet_start hs hstep
    obtain ⟨ls, s2, h4, h5, h6⟩ := serve_all ms ((s.after (Fleet.setRun id 0 ms s.ms) new).ms.map M.name) _ hs1
    obtain ⟨s', h7⟩ := ih s2 (quiets_start hs1 h4)
    refine ⟨s', .succ ⟨_, .cons hstep h4, by simp, fun m _ m' hm' he _ => ?_⟩ h7⟩
    rw [he]
    exact List.mem_cons_of_mem _ (h6 m' hm' (h5 m' hm'))

/-! ### A concrete disturbed execution -/

def demoVM : Creation.VM := ⟨"node-a", "prov:///a"⟩

/-- the creation fails, but there is a VM -/
def demoTrouble : Trouble := { create := some (render .internal "quota", ""), made := true }

def demo1 : Fleet.Fleet := Fleet.Fleet.after { ms := [] } (fun m => Fleet.Deed.none.effect 0 m) [.live [] { name := "a" } {}]
/-- it gets its finalizer -/
def demo2 : Fleet.Fleet := demo1.after (Fleet.roughRun "a" Fleet.goodEnv {} demoVM) []
def demo3 : Fleet.Fleet := demo2.after (Fleet.roughRun "a" Fleet.goodEnv demoTrouble demoVM) []
/-- its deletion is announced, but refused -/
def demo4 : Fleet.Fleet := demo3.after (fun m => Fleet.Deed.announce.effect 5 m) []

theorem empty_start : Start { ms := [] } := ⟨by simp, by simp, rfl⟩

theorem demoVM_proper : ProperVM demoVM := ⟨by decide, by decide, by unfold NameLike; decide⟩

theorem goodEnv_types : DistinctTypes Fleet.goodEnv := by
  intro n hn
  cases hn
  decide

theorem demo_reach : Reach { ms := [] } demo4 := by
  have h1 : Reach { ms := [] } demo1 := .step .refl (.others 0 (fun _ => .none) [.live [] { name := "a" } {}]
    (fun m hm => by
      rw [List.mem_singleton.1 hm]
      exact ⟨_, _, rfl, ⟨rfl, rfl, rfl, rfl, by simp⟩, rfl, by unfold NameLike; decide⟩) (by simp))
  have h2 : Reach { ms := [] } demo2 := h1.step (.machine "a" Fleet.goodEnv {} demoVM (fun t h => by rcases h with h | h <;> cases h) demoVM_proper goodEnv_types)
  have h3 : Reach { ms := [] } demo3 := h2.step (.machine "a" Fleet.goodEnv demoTrouble demoVM (fun t h => by rcases h with h | h <;> cases h) demoVM_proper goodEnv_types)
  exact h3.step (.others 5 (fun _ => .announce) [] (fun m hm => by cases hm) (by rw [List.append_nil]; exact (reach_start empty_start h3).names))

theorem demo4_calls : demo4.ms.map (fun m => (m.name, m.vms, calls m)) = [("a", [demoVM], true)] := by
  decide +kernel

/-- the machine of which the API server is told that it is being deleted, though it is not, and whose VM nobody knows, becomes one of two machines that run -/
example : ∃ s', Fleet.Epochs { replicas := 2 } 15 demo4 s' ∧ s'.ms.length = 2 ∧ ∀ m ∈ s'.ms, Fleet.Desired m := by
  obtain ⟨s', h⟩ := C116_possible { replicas := 2 } _ _ empty_start demo_reach 15
  have hl : demo4.ms.length ≤ 100 * 1 := by
    have := congrArg List.length demo4_calls
    rw [List.length_map] at this
    rw [this]; decide
  obtain ⟨h1, h2, _⟩ := C116_recovers_partial { replicas := 2 } (by decide) _ _ s' empty_start demo_reach 1 15 (by decide) hl (by omega) h
  exact ⟨s', h, h1, h2⟩

example : demo4.orphans = [] ∧ ∀ vms v x, .live vms v x ∈ demo4.ms → vms.length ≤ 1 :=
  ⟨(C116_no_vm_lost_partial _ _ empty_start demo_reach).1, (C116_no_vm_lost_partial _ _ empty_start demo_reach).2.2⟩

/-! ### What is missing -/

/-- a provider that does not implement `GetMachineStatus` -/
def demoMute : Trouble := { status := some (render .unimplemented "-") }

/-- C116 fails with a provider that does not implement `GetMachineStatus`: a machine whose VM is not recorded gets a second one. -/
theorem C116_unimplemented_false : ∃ m m', Fair m ∧ m.vms.length = 1 ∧
    Fleet.roughRun "a" Fleet.goodEnv demoMute ⟨"node-b", "prov:///b"⟩ m = some m' ∧ m'.vms.length = 2 := by
  have hc : Lifecycle.asks (troubled Fleet.goodEnv demoMute ⟨"node-b", "prov:///b"⟩ [demoVM]) { name := "a", finalizer := true } = true := by
    unfold Lifecycle.asks
    rw [show Lifecycle.ends (troubled Fleet.goodEnv demoMute ⟨"node-b", "prov:///b"⟩ [demoVM]) { name := "a", finalizer := true } = false from rfl,
      Creation.creates_of_none (m := "-") ⟨rfl, rfl, rfl, rfl, rfl, rfl, rfl, rfl, rfl, .inl rfl⟩ rfl rfl (.inr Creation.unimplemented_decodes)]
    rfl
  refine ⟨.live [demoVM] { name := "a", finalizer := true } {}, _, ?_, rfl, rfl, ?_⟩
  · refine ⟨by unfold NameLike; decide, rfl, by simp, fun h => (by cases h), fun h => (by cases h), ?_, .inl ⟨rfl, rfl, by simp, ?_⟩⟩
    · intro y hy; rw [List.mem_singleton.1 hy]; exact demoVM_proper.2.2
    · intro y hy; rw [List.mem_singleton.1 hy]; exact ⟨demoVM_proper.1, demoVM_proper.2.1⟩
  · unfold rough M.vms
    dsimp only
    rw [if_pos hc]
    rfl

/-- a machine that runs asks the provider nothing -/
theorem running_asks {e : Lifecycle.Env} {v : Lifecycle.Obj} (hp : v.st.phase = .running) (hi : v.pid ≠ "") (hf : v.finalizer = true) :
    Lifecycle.asks e v = false ∧ Lifecycle.rest e v = none := by
  have : (Creation.reconcile { e.c with health := none } v.toObj).events = [] ∧ (Creation.reconcile { e.c with health := none } v.toObj).wrote = none := by
    unfold Creation.reconcile
    rw [hf, hp]
    simp only [hi, Option.isSome_none, Bool.false_eq_true, and_false, if_false, Bool.not_true, false_or, reduceCtorEq]
    repeat' split
    all_goals exact ⟨rfl, rfl⟩
  constructor
  · unfold Lifecycle.asks Creation.creates
    rw [this.1]; simp
  · unfold Lifecycle.rest
    rw [this.2]; rfl

theorem running_live {e : Lifecycle.Env} {vm : Creation.VM} {v : Lifecycle.Obj} (l l' : List Creation.VM) (hp : v.st.phase = .running) (hi : v.pid ≠ "") (hf : v.finalizer = true) :
    (Lifecycle.live e vm (l, v)).1 = l ∧ (Lifecycle.live e vm (l, v)).2 = (Lifecycle.live e vm (l', v)).2 := by
  constructor
  · unfold Lifecycle.live
    dsimp only
    rw [(running_asks hp hi hf).1]; rfl
  · unfold Lifecycle.live
    dsimp only
    refine congrArg (fun o : Option Lifecycle.Obj => o.getD v) ?_
    unfold Lifecycle.run
    rw [(running_asks hp hi hf).2, (running_asks hp hi hf).2]
    rfl

/-- C116 fails if a VM vanishes while its node looks healthy: as long as that is so, the machine stays Running without a VM, however often the machine controller
looks at it. -/
theorem C116_vanished_false (runs : List (Lifecycle.Env × Creation.VM)) (hr : ∀ r ∈ runs, Lifecycle.Good r.1 r.2 Fleet.demoC) :
    (runs.foldl (fun s r => Lifecycle.live r.1 r.2 s) ([], Fleet.demoC)).1 = [] ∧
      (runs.foldl (fun s r => Lifecycle.live r.1 r.2 s) ([], Fleet.demoC)).2.st.phase = .running := by
  have key : ∀ (runs : List (Lifecycle.Env × Creation.VM)) (v : Lifecycle.Obj), (∀ r ∈ runs, Lifecycle.Good r.1 r.2 v) →
      Left [⟨"node-c", "prov:///c"⟩] v 0 → v.deleting = false → (v.conds.map (·.type)).Nodup →
      (runs.foldl (fun s r => Lifecycle.live r.1 r.2 s) ([], v)).1 = [] ∧ (runs.foldl (fun s r => Lifecycle.live r.1 r.2 s) ([], v)).2.st.phase = .running := by
    intro runs
    induction runs with
    | nil =>
      intro v _ hl _ _
      cases hl with
      | running _ hp => exact ⟨rfl, hp⟩
    | cons r runs ih =>
      intro v hg hl hd hn
      obtain ⟨⟨j, hj, hl'⟩, s1, s2, s3, s4, _⟩ := Lifecycle.live_left (hg r (by simp)) hd hn hl
      rw [List.foldl_cons]
      cases hl with
      | running hrec hp =>
        obtain ⟨y, hy, hf, _, hpid, _, hne, _⟩ := hrec
        obtain ⟨k1, k2⟩ := running_live (e := r.1) (vm := r.2) [] [⟨"node-c", "prov:///c"⟩] hp (by rw [hpid]; exact hne) hf
        have k3 := (running_live (e := r.1) (vm := r.2) [⟨"node-c", "prov:///c"⟩] [] hp (by rw [hpid]; exact hne) hf).1
        have hj0 : j = 0 := by omega
        subst hj0
        rw [k3, ← k2] at hl'
        rw [← k2] at s1 s2 s3 s4
        rw [show Lifecycle.live r.1 r.2 ([], v) = ([], (Lifecycle.live r.1 r.2 ([], v)).2) from Prod.ext k1 rfl]
        refine ih _ (fun r' hr' => ?_) hl' s1 s4
        have hg' := hg r' (List.mem_cons_of_mem _ hr')
        obtain ⟨g1, g2, g3, g4, g5⟩ := hg'
        refine ⟨⟨g1.running, g1.valid, g1.cls, g1.clsFin, g1.tmpl, g1.health, g1.user, g1.label, g1.status, g1.fin, g1.init, ?_, g1.pid⟩, g2, g3, g4, ?_⟩
        · rw [s2]; exact g1.fresh
        · rw [s3]; exact g5
  exact key runs Fleet.demoC hr (.running ⟨_, rfl, rfl, rfl, rfl, by decide, by decide, by simp [Fleet.demoC]⟩ rfl) rfl (by simp [Fleet.demoC])

/-- such a run -/
example : Lifecycle.Good Fleet.goodEnv ⟨"node", "prov:///vm"⟩ Fleet.demoC := Fleet.goodEnv_good _

end MCM.Recovery
