import Verif.Model.SetRun
import Verif.Model.Teardown
import Verif.Model.World
import Verif.Model.Events
import Verif.Model.RefWake
/-!
Where two models cover the same code, they agree: the theorems below relate the coarser one to the finer one, for all inputs. None of them is a claim; they
are here so that results proved about one model can be read as results about the other.

* `Deletion.reconcileSet` and `SetRun.run`: machineset.go:457-587
* `Deletion.reconcileDeployment` and `Dispatch.reconcile`: deployment.go:414-551
* `MachineSet.prepareMachineForDeletion`, `Fleet.kill` and `Teardown.prepare`: machineset.go:665-711
* `MachineSet.apply` and `Fleet.setRun`: machineset.go:333-452
* `Events.machineToClass` and `RefWake.machineAdded`: machineclass.go:25-38
-/
namespace MCM.Agree
open MCM

/-! ### deleting machines -/

/-- the object is on its way, or protected by the finalizer -/
def Kept : Fleet.M → Prop
  | .live _ v _ => v.finalizer = true
  | .dying _ _ _ _ _ => True

/-- all calls for a machine succeed -/
def allOk : MachineSet.TermOutcome := ⟨true, true⟩

theorem agree_kill (now : Int) (m : Fleet.M) (h : Kept m) :
    (Fleet.kill now m).map Fleet.view = some (MachineSet.prepareMachineForDeletion allOk (Fleet.view m)) := by
  cases m with
  | live vms v x =>
    show (if v.finalizer then _ else _ : Option Fleet.M).map Fleet.view = _
    rw [if_pos (show v.finalizer = true from h)]; rfl
  | dying vms t p c tr => rfl

/-- the answers of the API server that make up a fate -/
def answers : Teardown.Fate → MachineSet.TermOutcome
  | .lost => ⟨false, false⟩
  | .refused => ⟨false, true⟩
  | .done => ⟨true, true⟩

/-- with a cache that knows of the deletion, if there is one -/
theorem agree_prepare (now : Int) (f : Teardown.Fate) (o : Claim.Obj) (m : Fleet.M) (h : Kept m) (ho : o.deleting = m.isDying) :
    (Teardown.prepare now f o m).map Fleet.view = some (MachineSet.prepareMachineForDeletion (answers f) (Fleet.view m)) := by
  unfold Teardown.prepare
  rw [ho]
  cases m with
  | live vms v x =>
    rw [if_neg (fun hh : Fleet.M.isDying (.live vms v x) = true => nomatch hh)]
    cases f with
    | lost => rfl
    | refused => rfl
    | done => exact agree_kill now _ h
  | dying vms t p c tr => rfl

theorem setRun_view (srt : List Machine → List Machine) (now : Int) (ms : MachineSet.MSet) (w : List Fleet.M) (m : Fleet.M) (h : Kept m) :
    (Fleet.setRun srt now ms w m).map Fleet.view
      = some (if (Fleet.view m).name ∈ Fleet.targets (Fleet.plan srt ms w)
          then MachineSet.prepareMachineForDeletion allOk (Fleet.view m) else Fleet.view m) := by
  have hn : (Fleet.view m).name = m.name := by cases m <;> rfl
  unfold Fleet.setRun
  rw [hn]
  by_cases hm : m.name ∈ Fleet.targets (Fleet.plan srt ms w)
  · rw [if_pos hm, if_pos hm]; exact agree_kill now m h
  · rw [if_neg hm, if_neg hm]; rfl

theorem prepare_name (o : MachineSet.TermOutcome) (m : Machine) : (MachineSet.prepareMachineForDeletion o m).name = m.name := by
  unfold MachineSet.prepareMachineForDeletion
  by_cases h : m.deleting = true
  · rw [if_pos h]
  · rw [if_neg h]; cases o.deleteOk <;> cases o.statusOk <;> rfl

theorem prepare_twice (m : Machine) :
    MachineSet.prepareMachineForDeletion allOk (MachineSet.prepareMachineForDeletion allOk m) = MachineSet.prepareMachineForDeletion allOk m := by
  unfold MachineSet.prepareMachineForDeletion
  by_cases h : m.deleting = true
  · rw [if_pos h, if_pos h]
  · rw [if_neg h]; rfl

theorem apply_eq (out : MachineSet.Outcome) (w : List Machine) :
    MachineSet.apply (fun _ => allOk) out [] w
      = w.map fun m => if m.name ∈ Fleet.targets out then MachineSet.prepareMachineForDeletion allOk m else m := by
  unfold MachineSet.apply MachineSet.terminateMachines Fleet.targets
  rw [List.append_nil, List.map_map]
  refine List.map_congr_left fun m _ => ?_
  simp only [Function.comp, List.map_append, List.mem_append]
  by_cases h1 : m.name ∈ out.staleTerminated.map Machine.name
  · rw [if_pos h1, prepare_name, if_pos (show _ ∨ _ from .inl h1)]
    by_cases h2 : m.name ∈ out.victims.map Machine.name
    · rw [if_pos h2, prepare_twice]
    · rw [if_neg h2]
  · rw [if_neg h1]
    by_cases h2 : m.name ∈ out.victims.map Machine.name
    · rw [if_pos h2, if_pos (show _ ∨ _ from .inr h2)]
    · rw [if_neg h2, if_neg (fun h => h.elim h1 h2)]

/-- a run of the machine set controller changes the machines there are as `MachineSet.apply` says -/
theorem agree_setRun (srt : List Machine → List Machine) (now : Int) (ms : MachineSet.MSet) (hx : ms.deleting = false) (w : List Fleet.M) (h : ∀ m ∈ w, Kept m) :
    (w.filterMap (Fleet.setRun srt now ms w)).map Fleet.view
      = MachineSet.apply (fun _ => allOk) (MachineSet.manageReplicas srt Fleet.allCreated (w.map Fleet.view) ms) [] (w.map Fleet.view) := by
  rw [apply_eq, List.map_map, List.map_filterMap,
    show MachineSet.manageReplicas srt Fleet.allCreated (w.map Fleet.view) ms = Fleet.plan srt ms w from by unfold Fleet.plan; rw [hx]; rfl]
  have : ∀ l : List Fleet.M, (∀ m ∈ l, Kept m) → List.filterMap (fun x => (Fleet.setRun srt now ms w x).map Fleet.view) l
      = l.map ((fun m => if m.name ∈ Fleet.targets (Fleet.plan srt ms w) then MachineSet.prepareMachineForDeletion allOk m else m) ∘ Fleet.view) := by
    intro l
    induction l with
    | nil => intro _; rfl
    | cons a l ih =>
      intro hl
      rw [List.filterMap_cons, setRun_view srt now ms w a (hl a List.mem_cons_self), List.map_cons]
      dsimp only
      rw [ih fun m hm => hl m (List.mem_cons_of_mem _ hm)]
      rfl
  exact this w h

/-! ### deleting machine sets -/

/-- the finalizer edits of a run: `true` for adding -/
def finEdits : List SetRun.Act → List Bool
  | [] => []
  | .addFinalizer :: l => true :: finEdits l
  | .removeFinalizer :: l => false :: finEdits l
  | _ :: l => finEdits l

/-- the same in the model of deletion -/
def finWrites : List Deletion.Act → List Bool
  | [] => []
  | .writeFinalizers fs :: l => decide (Deletion.finalizerName ∈ fs) :: finWrites l
  | _ :: l => finWrites l

/-- the set in both models -/
structure SameSet (o : Deletion.FObj) (s : SetRun.SetObj) : Prop where
  uid : o.uid = s.uid
  deleting : o.deleting = s.deleting
  finalizer : decide (Deletion.finalizerName ∈ o.finalizers) = s.finalizer

/-- the outcomes of the calls of a run, as the model of deletion has them -/
def outcomes (e : SetRun.Env) (s : SetRun.SetObj) (cache : List SetRun.Mach) : Deletion.Env :=
  { valid := e.valid
    selectorOk := e.selectorOk
    finWriteOk := if s.deleting then e.removeOk else e.addOk
    syncOk := (SyncMachines.reconcile s.want e.att ((SetRun.claimed e s cache).map SetRun.Mach.sync)).2 }

theorem finEdits_append (a b : List SetRun.Act) : finEdits (a ++ b) = finEdits a ++ finEdits b := by
  induction a with
  | nil => rfl
  | cons x a ih => cases x <;> simp [finEdits, ih]

theorem finWrites_append (a b : List Deletion.Act) : finWrites (a ++ b) = finWrites a ++ finWrites b := by
  induction a with
  | nil => rfl
  | cons x a ih => cases x <;> simp [finWrites, ih]

theorem finEdits_claims (l : List Claim.Eff) : finEdits (l.map .claim) = [] := by
  induction l with
  | nil => rfl
  | cons x l ih => exact ih

theorem finEdits_dels (l : List Machine) : finEdits (SetRun.dels l) = [] := by
  unfold SetRun.dels
  induction (l.filter fun m => !m.deleting) with
  | nil => rfl
  | cons x l ih => exact ih

theorem finEdits_manage (o : MachineSet.Outcome) : finEdits (SetRun.manage o) = [] := by
  unfold SetRun.manage
  rw [finEdits_append, finEdits_append, finEdits_dels, finEdits_dels]
  cases o.creation <;> rfl

theorem protect_eq {o : Deletion.FObj} {s : SetRun.SetObj} (h : SameSet o s) :
    finEdits (SetRun.protect s) = finWrites (if o.deleting then [] else Deletion.addFin o) := by
  unfold SetRun.protect SetRun.needsFinalizer Deletion.addFin
  rw [h.deleting, ← h.finalizer]
  cases s.deleting
  · by_cases hf : Deletion.finalizerName ∈ o.finalizers
    · simp [hf, finEdits, finWrites]
    · simp [hf, finEdits, finWrites]
  · rfl

theorem protect_isEmpty {o : Deletion.FObj} {s : SetRun.SetObj} (h : SameSet o s) :
    SetRun.needsFinalizer s = !(if o.deleting then [] else Deletion.addFin o).isEmpty := by
  unfold SetRun.needsFinalizer Deletion.addFin
  rw [h.deleting, ← h.finalizer]
  cases s.deleting
  · by_cases hf : Deletion.finalizerName ∈ o.finalizers
    · simp [hf]
    · simp [hf]
  · rfl

theorem delFin_writes (o : Deletion.FObj) :
    finWrites (Deletion.delFin o) = if Deletion.finalizerName ∈ o.finalizers then [false] else [] := by
  unfold Deletion.delFin
  by_cases hf : Deletion.finalizerName ∈ o.finalizers
  · rw [if_pos hf, if_pos hf]
    simp [finWrites]
  · rw [if_neg hf, if_neg hf]; rfl

theorem finEdits_report (e : SetRun.Env) (s : SetRun.SetObj) (ms : List SetRun.Mach) (done : List SetRun.Act) (err : Bool) :
    finEdits (SetRun.report e s ms done err).acts = finEdits done := by
  unfold SetRun.report
  dsimp only
  split
  · split
    · show finEdits (done ++ [_]) = _
      rw [finEdits_append]; simp [finEdits]
    · show finEdits (done ++ [_]) = _
      rw [finEdits_append]; simp [finEdits]
  · rfl

theorem claimAll_mem (self : Claim.Ctrl) (sel : SMap → Bool) (live : Option Claim.Ctrl) (ans : Claim.Obj → Option Claim.ApiErr) :
    ∀ (l : List Claim.Obj) (memo : Option Bool) (o : Claim.Obj), o ∈ (Claim.claimAll self sel live ans memo l).1 → o ∈ l
  | [], _, _, h => nomatch h
  | a :: l, memo, o, h => by
    rw [Claim.claimAll] at h
    dsimp only at h
    cases hc : (Claim.claimObject self sel live ans memo a).claimed with
    | true =>
      rw [hc, if_pos rfl] at h
      cases h with
      | head => exact List.mem_cons_self
      | tail _ h => exact List.mem_cons_of_mem _ (claimAll_mem self sel live ans l _ o h)
    | false =>
      rw [hc, if_neg Bool.false_ne_true] at h
      exact List.mem_cons_of_mem _ (claimAll_mem self sel live ans l _ o h)

theorem claimed_isEmpty (e : SetRun.Env) (s : SetRun.SetObj) (cache : List SetRun.Mach) :
    (SetRun.claimed e s cache).isEmpty = (SetRun.claim e s cache).1.isEmpty := by
  unfold SetRun.claimed
  cases hc : (SetRun.claim e s cache).1 with
  | nil => simp
  | cons o l =>
    have hm : o ∈ cache.map SetRun.Mach.obj := by
      have : o ∈ (SetRun.claim e s cache).1 := by rw [hc]; exact List.mem_cons_self
      exact claimAll_mem _ _ _ _ _ _ _ this
    obtain ⟨m, hm', rfl⟩ := List.mem_map.1 hm
    have : m ∈ cache.filter fun m' => (m.obj :: l).contains m'.obj := List.mem_filter.2 ⟨hm', by simp⟩
    cases hl : cache.filter (fun m' => (m.obj :: l).contains m'.obj) with
    | nil => rw [hl] at this; exact nomatch this
    | cons _ _ => rfl

/-- both models edit the finalizers in the same way -/
theorem agree_set_finalizers (o : Deletion.FObj) (e : SetRun.Env) (s : SetRun.SetObj) (cache : List SetRun.Mach) (h : SameSet o s) :
    finEdits (SetRun.run e s cache).acts
      = finWrites (Deletion.reconcileSet o (outcomes e s cache) s.sel e.live e.patch (some (cache.map SetRun.Mach.obj))) := by
  unfold SetRun.run Deletion.reconcileSet outcomes
  dsimp only
  have ht : ¬ ((!true) = true) := by decide
  have hf' : (!false) = true := rfl
  cases hv : e.valid with
  | false => rfl
  | true =>
    rw [if_neg ht, if_neg ht]
    have hn := protect_isEmpty h
    have hp := protect_eq h
    rw [hn]
    by_cases h1 : (!(if o.deleting then [] else Deletion.addFin o).isEmpty) = true ∧ e.addOk = false
    · have hd : s.deleting = false := by
        cases hd : s.deleting with
        | false => rfl
        | true => rw [h.deleting, hd] at h1; exact nomatch h1.1
      rw [if_pos (show (_ && !e.addOk) = true by rw [h1.1, h1.2]; rfl), hd, if_neg Bool.false_ne_true, if_pos (show (_ && !e.addOk) = true by rw [h1.1, h1.2]; rfl)]
      exact hp
    · have h2 : ((!(if o.deleting then [] else Deletion.addFin o).isEmpty) && !e.addOk) = false := by
        cases h3 : (!(if o.deleting then [] else Deletion.addFin o).isEmpty) with
        | false => rfl
        | true =>
          cases h4 : e.addOk with
          | true => rfl
          | false => exact absurd ⟨h3, h4⟩ h1
      rw [if_neg (ne_true_of_eq_false h2)]
      have h3 : ((!(if o.deleting then [] else Deletion.addFin o).isEmpty) && !(if s.deleting then e.removeOk else e.addOk)) = false := by
        cases hd : s.deleting with
        | false => rw [if_neg Bool.false_ne_true]; exact h2
        | true => rw [h.deleting, hd]; rfl
      rw [if_neg (ne_true_of_eq_false h3)]
      cases hs : e.selectorOk with
      | false => exact hp
      | true =>
        rw [if_neg ht, if_neg ht]
        have hcl : Claim.claimAll ⟨o.uid, o.deleting⟩ s.sel e.live e.patch none (cache.map SetRun.Mach.obj) = SetRun.claim e s cache := by
          unfold SetRun.claim; rw [h.uid, h.deleting]
        rw [hcl]
        cases hc : (SetRun.claim e s cache).2.1 with
        | true =>
          rw [if_pos rfl, if_pos rfl]
          show finEdits (_ ++ _) = _
          rw [finEdits_append, finEdits_claims, List.append_nil]
          exact hp
        | false =>
          rw [if_neg Bool.false_ne_true, if_neg Bool.false_ne_true]
          unfold SetRun.serve
          dsimp only
          cases hy : (SyncMachines.reconcile s.want e.att ((SetRun.claimed e s cache).map SetRun.Mach.sync)).2 with
          | false =>
            rw [if_pos hf', if_pos hf']
            dsimp only
            rw [finEdits_append, finEdits_append, finEdits_claims, finWrites_append, hp]
            simp [finEdits, finWrites]
          | true =>
            rw [if_neg ht, if_neg ht]
            unfold SetRun.replicas
            rw [claimed_isEmpty, ← h.deleting]
            cases hd : o.deleting with
            | false =>
              rw [if_pos hf', if_pos hf']
              dsimp only
              rw [if_neg Bool.false_ne_true, finEdits_report, finEdits_append, finEdits_append, finEdits_append, finEdits_claims, finEdits_manage,
                finWrites_append, hp, hd]
              simp [finEdits, finWrites]
            | true =>
              rw [if_neg ht, if_neg ht]
              have hp' : finEdits (SetRun.protect s) = [] := by rw [hp, hd]; rfl
              cases he : (SetRun.claim e s cache).1.isEmpty with
              | true =>
                rw [if_pos rfl, if_pos rfl]
                have hfin := h.finalizer
                by_cases hf : Deletion.finalizerName ∈ o.finalizers
                · rw [decide_eq_true hf] at hfin
                  rw [if_pos hfin.symm]
                  dsimp only
                  have hw : finWrites (Deletion.delFin o) = [false] := by rw [delFin_writes, if_pos hf]
                  have hrest : ∀ b : Bool, finWrites (if b = true then [Deletion.Act.others] else []) = [] := by
                    intro b; cases b <;> rfl
                  rw [finWrites_append, finWrites_append, hw, hrest]
                  cases hr : e.removeOk with
                  | true =>
                    rw [if_neg (by decide), finEdits_report, finEdits_append, finEdits_append, finEdits_append, finEdits_claims, hp']
                    rfl
                  | false =>
                    rw [if_pos (by decide)]
                    dsimp only
                    rw [finEdits_append, finEdits_append, finEdits_append, finEdits_claims, hp']
                    rfl
                · rw [decide_eq_false hf] at hfin
                  rw [if_neg (ne_true_of_eq_false hfin.symm)]
                  dsimp only
                  have hw : finWrites (Deletion.delFin o) = [] := by rw [delFin_writes, if_neg hf]
                  have hrest : ∀ b : Bool, finWrites (if b = true then [Deletion.Act.others] else []) = [] := by
                    intro b; cases b <;> rfl
                  rw [finWrites_append, finWrites_append, hw, hrest, if_neg Bool.false_ne_true, finEdits_report, finEdits_append, finEdits_append,
                    finEdits_append, finEdits_claims, hp']
                  rfl
              | false =>
                rw [if_neg Bool.false_ne_true, if_neg Bool.false_ne_true]
                have hfin := h.finalizer
                by_cases hf : Deletion.finalizerName ∈ o.finalizers
                · rw [decide_eq_true hf] at hfin
                  rw [if_pos hfin.symm, if_pos hf]
                  dsimp only
                  rw [if_neg Bool.false_ne_true, finEdits_report, finEdits_append, finEdits_append, finEdits_append, finEdits_claims, hp', finEdits_dels]
                  rfl
                · rw [decide_eq_false hf] at hfin
                  rw [if_neg (ne_true_of_eq_false hfin.symm), if_neg hf]
                  dsimp only
                  rw [if_neg Bool.false_ne_true, finEdits_report, finEdits_append, finEdits_append, finEdits_append, finEdits_claims, hp']
                  rfl

/-- both models tell the same machines of a set that is being deleted to go -/
theorem agree_set_terminate (o : Deletion.FObj) (e : SetRun.Env) (s : SetRun.SetObj) (cache : List SetRun.Mach) (h : SameSet o s) (hd : s.deleting = true)
    (hu : ∀ a ∈ cache, ∀ b ∈ cache, a.name = b.name → a = b) (m : SetRun.Mach) (hm : m ∈ cache) :
    .delete m.name ∈ (SetRun.run e s cache).acts
      ↔ ∃ deps, .terminate deps ∈ Deletion.reconcileSet o (outcomes e s cache) s.sel e.live e.patch (some (cache.map SetRun.Mach.obj))
          ∧ m.obj ∈ deps ∧ m.deleting = false := by
  have ht : ¬ ((!true) = true) := by decide
  have hf' : (!false) = true := rfl
  have hod : o.deleting = true := by rw [h.deleting, hd]
  have hprot : SetRun.protect s = [] := by unfold SetRun.protect SetRun.needsFinalizer; rw [hd]; rfl
  have hneed : SetRun.needsFinalizer s = false := by unfold SetRun.needsFinalizer; rw [hd]; rfl
  have hcl : Claim.claimAll ⟨o.uid, o.deleting⟩ s.sel e.live e.patch none (cache.map SetRun.Mach.obj) = SetRun.claim e s cache := by
    unfold SetRun.claim; rw [h.uid, h.deleting]
  have hclaims : ∀ l : List Claim.Eff, SetRun.Act.delete m.name ∉ l.map .claim := by
    intro l hl
    obtain ⟨x, _, hx⟩ := List.mem_map.1 hl
    exact nomatch hx
  have hreport : ∀ ms done err, SetRun.Act.delete m.name ∈ (SetRun.report e s ms done err).acts ↔ SetRun.Act.delete m.name ∈ done := by
    intro ms done err
    unfold SetRun.report
    dsimp only
    split
    · split <;> simp
    · rfl
  unfold SetRun.run Deletion.reconcileSet
  rw [hod, hprot, hneed]
  dsimp only
  rw [if_pos rfl, List.nil_append]
  have hvo : (outcomes e s cache).valid = e.valid := rfl
  have hso : (outcomes e s cache).selectorOk = e.selectorOk := rfl
  have hyo : (outcomes e s cache).syncOk = (SyncMachines.reconcile s.want e.att ((SetRun.claimed e s cache).map SetRun.Mach.sync)).2 := rfl
  rw [hvo, hso, hyo]
  cases e.valid with
  | false => exact iff_of_false (fun hx => nomatch hx) (fun ⟨_, hx, _⟩ => nomatch hx)
  | true =>
    rw [if_neg ht, if_neg ht, Bool.false_and, if_neg Bool.false_ne_true, if_neg (show ¬ ((!List.isEmpty (α := Deletion.Act) [] && _) = true) from Bool.false_ne_true)]
    cases e.selectorOk with
    | false => exact iff_of_false (fun hx => nomatch hx) (fun ⟨_, hx, _⟩ => nomatch hx)
    | true =>
      rw [if_neg ht, if_neg ht, ← hod, hcl, hod]
      cases (SetRun.claim e s cache).2.1 with
      | true =>
        rw [if_pos rfl, if_pos rfl]
        exact ⟨fun hx => absurd hx (hclaims _), fun ⟨_, hx, _⟩ => nomatch hx⟩
      | false =>
        rw [if_neg Bool.false_ne_true, if_neg Bool.false_ne_true]
        unfold SetRun.serve
        dsimp only
        cases (SyncMachines.reconcile s.want e.att ((SetRun.claimed e s cache).map SetRun.Mach.sync)).2 with
        | false =>
          rw [if_pos hf', if_pos hf']
          refine ⟨fun hx => ?_, fun ⟨_, hx, _⟩ => ?_⟩
          · rcases List.mem_append.1 hx with hx | hx
            · exact absurd hx (hclaims _)
            · exact nomatch List.mem_singleton.1 hx
          · simp at hx
        | true =>
          rw [if_neg ht, if_neg ht, if_neg ht]
          have hfin := h.finalizer
          unfold SetRun.replicas
          rw [claimed_isEmpty, hd, if_neg ht]
          cases he : (SetRun.claim e s cache).1.isEmpty with
          | true =>
            rw [if_pos rfl, if_pos rfl]
            refine iff_of_false ?_ ?_
            · have key : ∀ (p : SetRun.Part) (l : List SetRun.Act), SetRun.Act.delete m.name ∉ p.acts → SetRun.Act.delete m.name ∉ l →
                  SetRun.Act.delete m.name ∉ (if p.stop = true then (⟨l ++ p.acts, { ok := false }⟩ : SetRun.Out)
                    else SetRun.report e s (SetRun.claimed e s cache) (l ++ p.acts) p.err).acts := by
                intro p l h1 h2 hx
                have hx : SetRun.Act.delete m.name ∈ l ++ p.acts := by
                  split at hx
                  · exact hx
                  · exact (hreport _ _ _).1 hx
                exact (List.mem_append.1 hx).elim h2 h1
              refine key _ _ ?_ ?_
              · cases s.finalizer with
                | true => exact fun hx => nomatch (List.mem_singleton.1 hx)
                | false => exact fun hx => nomatch hx
              · intro hx
                rcases List.mem_append.1 hx with hx | hx
                · exact absurd hx (hclaims _)
                · exact nomatch List.mem_singleton.1 hx
            · rintro ⟨_, hx, _⟩
              unfold Deletion.delFin at hx
              split at hx <;> split at hx <;> simp at hx
          | false =>
            rw [if_neg Bool.false_ne_true, if_neg Bool.false_ne_true]
            by_cases hf : Deletion.finalizerName ∈ o.finalizers
            · rw [decide_eq_true hf] at hfin
              rw [if_pos hfin.symm, if_pos hf]
              dsimp only
              rw [if_neg Bool.false_ne_true, hreport]
              have hdel : SetRun.Act.delete m.name ∈ SetRun.dels ((SetRun.claimed e s cache).map SetRun.Mach.view)
                  ↔ m.obj ∈ (SetRun.claim e s cache).1 ∧ m.deleting = false := by
                unfold SetRun.dels SetRun.claimed
                constructor
                · intro hx
                  obtain ⟨v, hv, hvn⟩ := List.mem_map.1 hx
                  obtain ⟨hv, hvd⟩ := List.mem_filter.1 hv
                  obtain ⟨m', hm', rfl⟩ := List.mem_map.1 hv
                  obtain ⟨hmc, hmo⟩ := List.mem_filter.1 hm'
                  have : m' = m := hu m' hmc m hm (by injection hvn)
                  subst this
                  refine ⟨by simpa using hmo, ?_⟩
                  have hvd : (!m'.deleting) = true := hvd
                  simpa using hvd
                · rintro ⟨ho, hmd⟩
                  refine List.mem_map.2 ⟨m.view, List.mem_filter.2 ⟨List.mem_map.2 ⟨m, List.mem_filter.2 ⟨hm, by simpa using ho⟩, rfl⟩, ?_⟩, rfl⟩
                  show (!m.deleting) = true
                  rw [hmd]; rfl
              constructor
              · intro hx
                rcases List.mem_append.1 hx with hx | hx
                · rcases List.mem_append.1 hx with hx | hx
                  · exact absurd hx (hclaims _)
                  · exact nomatch List.mem_singleton.1 hx
                · exact ⟨_, List.mem_append_right _ List.mem_cons_self, hdel.1 hx⟩
              · rintro ⟨deps, hx, hrest⟩
                have : deps = (SetRun.claim e s cache).1 := by simpa using hx
                rw [this] at hrest
                exact List.mem_append_right _ (hdel.2 hrest)
            · rw [decide_eq_false hf] at hfin
              rw [if_neg (ne_true_of_eq_false hfin.symm), if_neg hf]
              dsimp only
              rw [if_neg Bool.false_ne_true, hreport]
              refine iff_of_false ?_ ?_
              · intro hx
                rcases List.mem_append.1 hx with hx | hx
                · rcases List.mem_append.1 hx with hx | hx
                  · exact absurd hx (hclaims _)
                  · exact nomatch List.mem_singleton.1 hx
                · exact nomatch hx
              · rintro ⟨_, hx, _⟩
                simp at hx

/-! ### deleting deployments -/

/-- The same run of the deployment controller in both models: `Dispatch` starts from the sets that were claimed. -/
structure SameDep (o : Deletion.FObj) (env : Deletion.Env) (sel : SMap → Bool) (live : Option Claim.Ctrl) (ans : Claim.Obj → Option Claim.ApiErr)
    (cache : List Claim.Obj) (d : Dispatch.FDep) (e : Dispatch.Env) (sets : List Dispatch.FSet) : Prop where
  deleting : o.deleting = d.deleting
  finalizer : decide (Deletion.finalizerName ∈ o.finalizers) = d.finalizer
  valid : env.valid = e.valid
  selector : env.selectorOk = !d.selectsAll
  list : e.listOk = (!(Claim.claimAll ⟨o.uid, o.deleting⟩ sel live ans none cache).2.1 && env.syncOk)
  sets : (Claim.claimAll ⟨o.uid, o.deleting⟩ sel live ans none cache).1.map Claim.Obj.name = sets.map fun f => f.set.name

/-- both models take the finalizer of a deployment away in the same runs -/
theorem agree_dep_finalizer {o : Deletion.FObj} {env : Deletion.Env} {sel : SMap → Bool} {live : Option Claim.Ctrl}
    {ans : Claim.Obj → Option Claim.ApiErr} {cache : List Claim.Obj} {d : Dispatch.FDep} {e : Dispatch.Env} {sets : List Dispatch.FSet}
    (h : SameDep o env sel live ans cache d e sets) (hd : d.deleting = true) :
    (Dispatch.reconcile d e sets).dep.finalizer
      = (d.finalizer && !(finWrites (Deletion.reconcileDeployment o env sel live ans (some cache))).contains false) := by
  have hod : o.deleting = true := by rw [h.deleting, hd]
  have hset := h.sets
  have hl := h.list
  unfold Dispatch.reconcile Deletion.reconcileDeployment
  dsimp only
  rw [hod] at hset hl
  rw [h.valid, h.selector, hod, hd]
  cases e.valid with
  | false => cases hf : d.finalizer <;> simp [finWrites, hf]
  | true =>
    cases d.selectsAll with
    | true => cases hf : d.finalizer <;> simp [finWrites, hf]
    | false =>
      cases hc : (Claim.claimAll ⟨o.uid, true⟩ sel live ans none cache).2.1 with
      | true =>
        rw [hc] at hl
        rw [hl]
        cases hf : d.finalizer <;> simp [finWrites, hf]
      | false =>
        rw [hc] at hl
        rw [hl]
        cases env.syncOk with
        | false => cases hf : d.finalizer <;> simp [finWrites, hf]
        | true =>
          unfold Dispatch.reconcileDeleting
          by_cases hfin : Deletion.finalizerName ∈ o.finalizers
          · have hdf : d.finalizer = true := by rw [← h.finalizer, decide_eq_true hfin]
            have hw : finWrites (Deletion.delFin o) = [false] := by rw [delFin_writes, if_pos hfin]
            cases sets with
            | nil =>
              have he : (Claim.claimAll ⟨o.uid, true⟩ sel live ans none cache).1 = [] := List.map_eq_nil_iff.1 hset
              simp [hdf, he, hfin, hw]
            | cons f l =>
              have he : (Claim.claimAll ⟨o.uid, true⟩ sel live ans none cache).1.isEmpty = false := by
                cases hx : (Claim.claimAll ⟨o.uid, true⟩ sel live ans none cache).1 with
                | nil => rw [hx] at hset; exact nomatch hset
                | cons _ _ => rfl
              simp [hdf, he, hfin, finWrites]
          · have hdf : d.finalizer = false := by rw [← h.finalizer, decide_eq_false hfin]
            simp [hdf, hfin, finWrites]

/-- a deployment with a set of its own, and another one's set in the cache -/
example : SameDep ⟨"d", true, [Deletion.finalizerName]⟩ {} (fun _ => true) none (fun _ => none)
    [{ name := "a", uid := "1", owners := [⟨"d", true⟩] }, { name := "b", uid := "2", owners := [⟨"x", true⟩] }]
    { spec := { replicas := 3, maxSurge := none, maxUnavailable := none }, deleting := true } {} [{ set := { name := "a", spec := 3 } }] :=
  ⟨rfl, by decide, rfl, rfl, by decide, by decide⟩

/-- a set that is being deleted -/
example : SameSet ⟨"s", true, ["other", Deletion.finalizerName]⟩
    { uid := "s", deleting := true, replicas := 3, sel := fun _ => true, want := ⟨"t", "c", "k"⟩ } := ⟨rfl, rfl, by decide⟩

/-! ### machine classes -/

theorem agree_machine_class (m : Events.Mach) (k : Finalizers.Mach) (hk : k.kind = m.classKind) (hc : k.cls = m.className) :
    Events.machineToClass m = (RefWake.machineAdded k).map fun x => Events.Action.machineClass x.name := by
  unfold Events.machineToClass RefWake.machineAdded
  rw [hk, hc]
  by_cases h : m.classKind = "MachineClass"
  · rw [if_pos h, if_pos h]; rfl
  · rw [if_neg h, if_neg h]; rfl

end MCM.Agree
