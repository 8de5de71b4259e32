import Verif.Model.OwnNode
/-!
Property C95: the termination of a machine acts on no node but the machine's own.
-/
namespace MCM.OwnNode
open MCM

/-! ### Specification -/

/-- every node that a termination acted upon was run by a VM of the machine terminated, if it existed at all -/
def OnlyOwn (w : World) : Prop := ∀ m n o, (m, n, some o) ∈ w.acts → o = m

/-! ### What the runs do -/

theorem withStatus_node (e : Creation.Env) (v : Creation.Obj) (new : Similar.MStatus) (r : Nat) (err : Bool) (ev : List Creation.Event) (b : Option Creation.Obj)
    (P : Option String → Prop) (hv : P v.node) (hb : ∀ o, b = some o → P o.node) :
    ∀ o, (Creation.withStatus e v new r err ev b).wrote = some o → P o.node := by
  intro o h
  have key : ∀ (st : Option Similar.MStatus), ((st.map fun s => { v with st := s }).or b) = some o → P o.node := by
    intro st hst
    cases st with
    | none => exact hb o hst
    | some s => cases hst; exact hv
  unfold Creation.withStatus at h
  split at h <;> exact key _ h

theorem createError_node (e : Creation.Env) (v : Creation.Obj) (t l : String) (ev : List Creation.Event) (P : Option String → Prop) (hv : P v.node) :
    ∀ o, (Creation.createError e v t l ev).wrote = some o → P o.node := by
  unfold Creation.createError
  exact withStatus_node e v _ _ _ _ none P hv (fun o h => (nomatch h))

theorem initVM_node (e : Creation.Env) (c : Creation.Obj) (ev : List Creation.Event) (wrote : Option Creation.Obj) (P : Option String → Prop) (hc : P c.node)
    (hw : ∀ o, wrote = some o → P o.node) : ∀ o, (Creation.initVM e c ev wrote).wrote = some o → P o.node := by
  intro o h
  unfold Creation.initVM at h
  cases he : e.init with
  | none => rw [he] at h; exact hw o h
  | some text =>
    rw [he] at h
    dsimp only at h
    cases hf : Codes.fromError text with
    | none => rw [hf] at h; exact hw o h
    | some c' =>
      rw [hf] at h
      dsimp only at h
      split at h
      · exact hw o h
      · exact withStatus_node e c _ _ _ _ wrote P hc hw o h

theorem record_node (e : Creation.Env) (v : Creation.Obj) (n pid : String) (u : Bool) (ev : List Creation.Event) (P : Option String → Prop) (hv : P v.node) (hn : P (some n)) :
    ∀ o, (Creation.record e v n pid u ev).wrote = some o → P o.node := by
  have hw : ∀ o, (if (Creation.needsLabels v && e.labelRes == .ok) = true then some (Creation.labelled v n pid) else none) = some o → P o.node := by
    intro o h
    split at h
    · cases h; exact hn
    · cases h
  intro o h
  unfold Creation.record at h
  dsimp only at h
  split at h
  · refine initVM_node e _ _ _ P ?_ hw o h
    cases hx : (if (Creation.needsLabels v && e.labelRes == .ok) = true then some (Creation.labelled v n pid) else none) with
    | none => exact hv
    | some x => exact hw x hx
  · split at h
    · exact hw o h
    · split at h
      · dsimp only at h
        split at h
        · cases h; exact hv
        · cases h
      · cases h

theorem create_node (given : List (String × String)) (e : Creation.Env) (v o : Creation.Obj) (ht : Truthful given v.name e) (h : (Creation.reconcile e v).wrote = some o) :
    o.node = v.node ∨ ∃ n, o.node = some n ∧ (v.node = some n ∨ (v.name, n) ∈ given) := by
  let P : Option String → Prop := fun l => l = v.node ∨ ∃ n, l = some n ∧ (v.node = some n ∨ (v.name, n) ∈ given)
  show P o.node
  have hv : P v.node := .inl rfl
  unfold Creation.reconcile at h
  split at h
  · cases h
  split at h
  · cases h
  split at h
  · cases h
  split at h
  · dsimp only at h
    split at h
    · cases h; exact hv
    · cases h
  split at h
  · cases h
  split at h
  · unfold Creation.creation at h
    split at h
    · cases h
    dsimp only at h
    cases hs : e.status with
    | ok n p =>
      rw [hs] at h
      exact record_node e v n p false _ P hv (.inr ⟨n, rfl, .inr (ht.1 n p hs)⟩) o h
    | err t resp =>
      rw [hs] at h
      dsimp only at h
      have hnode : ∀ ev, (match v.node with
          | none => Creation.createStep e v
          | some n => Creation.record e v n "" false ev).wrote = some o → P o.node := by
        intro ev h
        cases hn : v.node with
        | none =>
          rw [hn] at h
          unfold Creation.createStep at h
          dsimp only at h
          cases hc : e.create with
          | err t' l => rw [hc] at h; exact createError_node e v t' l _ P hv o h
          | ok n p =>
            rw [hc] at h
            dsimp only at h
            split at h
            · exact withStatus_node e v _ _ _ _ none P hv (fun o h => (nomatch h)) o h
            · exact record_node e v n p true _ P hv (.inr ⟨n, rfl, .inr (ht.2.2 n p hc)⟩) o h
        | some n =>
          rw [hn] at h
          exact record_node e v n "" false ev P hv (.inr ⟨n, rfl, .inl hn⟩) o h
      cases hf : Codes.fromError t with
      | none => rw [hf] at h; cases h
      | some c =>
        rw [hf] at h
        obtain ⟨c, msg⟩ := c
        dsimp only at h
        split at h
        · exact hnode _ h
        · exact hnode _ h
        · cases hr : resp with
          | none => rw [hr] at h; cases h
          | some np =>
            rw [hr] at h
            obtain ⟨n, p⟩ := np
            exact record_node e v n p true _ P hv (.inr ⟨n, rfl, .inr (ht.2.1 t n p (hr ▸ hs))⟩) o h
        · exact createError_node e v t "" _ P hv o h
  · cases h

/-- the model's account of the nodes acted upon is complete: whatever a run of the termination drains or deletes is in it -/
theorem touched_complete (e : Termination.Env) (v : Termination.Obj) :
    (∀ n a, Termination.Event.deleteNode n a ∈ (Termination.flow e v).events → touched v = some n) ∧
    (∀ f r, Termination.Event.drained f r ∈ (Termination.flow e v).events → touched v = some v.node ∧ v.node ≠ "") := by
  unfold Termination.flow touched
  by_cases hf : v.finalizer = true
  · have hf' : ¬ ((!v.finalizer) = true) := by rw [hf]; decide
    rw [if_neg hf', if_neg hf']
    by_cases hp : v.st.phase ≠ .terminating
    · rw [if_pos hp, if_pos hp]
      unfold Termination.setTerminating
      exact ⟨fun n a h => (nomatch h), fun f r h => (nomatch h)⟩
    · rw [if_neg hp, if_neg hp]
      cases hd : Termination.decode v.st.desc with
      | none =>
        unfold Termination.setTerminating
        exact ⟨fun n a h => (nomatch h), fun f r h => (nomatch h)⟩
      | some s =>
        cases s with
        | getVM =>
          dsimp only
          unfold Termination.getVMStep
          constructor
          · intro n a h
            split at h
            · cases h
            · split at h <;> cases h
          · intro n a h
            split at h
            · cases h
            · split at h <;> cases h
        | drain =>
          dsimp only
          unfold Termination.drainStep
          by_cases hn : v.node = ""
          · rw [if_pos hn, if_pos hn]
            constructor
            · intro n a h; simp at h
            · intro n a h; simp at h
          · rw [if_neg hn, if_neg hn]
            constructor
            · intro n a h
              split at h
              · cases h
              · split at h
                · cases h
                · simp at h
            · intro f r h
              exact ⟨rfl, hn⟩
        | vols =>
          dsimp only
          unfold Termination.volStep
          constructor
          · intro n a h
            split at h
            · cases h
            · cases h
            · cases h
            · split at h <;> cases h
          · intro n a h
            split at h
            · cases h
            · cases h
            · cases h
            · split at h <;> cases h
        | vm =>
          dsimp only
          unfold Termination.vmStep
          constructor
          · intro n a h; simp at h
          · intro n a h; simp at h
        | node =>
          dsimp only
          unfold Termination.nodeStep
          by_cases hn : v.node ≠ ""
          · rw [if_pos hn, if_pos hn]
            constructor
            · intro n a h; simp at h; exact congrArg some h.1.symm
            · intro n a h; simp at h
          · rw [if_neg hn, if_neg hn]
            constructor
            · intro n a h; simp at h
            · intro n a h; simp at h
        | fin =>
          dsimp only
          unfold Termination.finStep
          exact ⟨fun n a h => (nomatch h), fun f r h => (nomatch h)⟩
  · rw [if_pos (by rw [Bool.not_eq_true] at hf; rw [hf]; rfl)]
    exact ⟨fun n a h => (nomatch h), fun f r h => (nomatch h)⟩

theorem touched_node {v : Termination.Obj} {n : String} (h : touched v = some n) : n = v.node := by
  unfold touched at h
  split at h
  · cases h
  · split at h
    · cases h
    · split at h
      · split at h
        · cases h
        · cases h; rfl
      · cases h; rfl
      · split at h
        · cases h; rfl
        · cases h
      · cases h

theorem fetch_some {view : List Node} {m n : String} (h : fetch view m = some n) : ∃ x ∈ view, x.label = m ∧ x.name = n := by
  unfold fetch at h
  cases hx : view.find? (fun n => n.label = m) with
  | none => rw [hx] at h; cases h
  | some x =>
    rw [hx] at h
    cases h
    exact ⟨x, List.mem_of_find?_eq_some hx, by simpa using List.find?_some hx, rfl⟩

theorem syncName_some {view : List Node} {m l : String} {n : Node} (h : syncName view m l = some n) :
    ∃ x ∈ view, x.name = l ∧ n = { x with label := m } := by
  unfold syncName at h
  cases hx : view.find? (fun n => n.name = l) with
  | none => rw [hx] at h; cases h
  | some x =>
    rw [hx] at h
    dsimp only at h
    split at h
    · cases h
    · cases h
      exact ⟨x, List.mem_of_find?_eq_some hx, by simpa using List.find?_some hx, rfl⟩

/-! ### Invariant -/

structure Inv (w : World) : Prop where
  unique : ∀ m m' n, (m, n) ∈ w.given → (m', n) ∈ w.given → m = m'
  proper : ∀ m n, (m, n) ∈ w.given → n ≠ ""
  named : ∀ m, w.labels m ≠ [] → m ≠ ""
  labels : ∀ m n, some n ∈ w.labels m → n ≠ "" → (m, n) ∈ w.given
  sub : ∀ x ∈ w.nodes, x ∈ w.seen
  nodes : ∀ x ∈ w.seen, (x.owner, x.name) ∈ w.given ∧ (x.label = "" ∨ x.label = x.owner)
  own : OnlyOwn w

theorem inv_relabel {w : World} (hi : Inv w) (m : String) (l : Option String) (hm : m ≠ "") (hl : ∀ n, l = some n → n ≠ "" → (m, n) ∈ w.given) : Inv (w.relabel m l) := by
  refine ⟨hi.unique, hi.proper, ?_, ?_, hi.sub, hi.nodes, hi.own⟩
  · intro x hx
    by_cases h : x = m
    · exact h ▸ hm
    · refine hi.named x ?_
      have : (w.relabel m l).labels x = w.labels x := if_neg h
      rw [this] at hx
      exact hx
  · intro x n hx hn
    by_cases h : x = m
    · have : (w.relabel m l).labels x = l :: w.labels x := if_pos h
      rw [this] at hx
      rcases List.mem_cons.1 hx with hx | hx
      · exact h ▸ hl n hx.symm hn
      · exact hi.labels x n hx hn
    · have : (w.relabel m l).labels x = w.labels x := if_neg h
      rw [this] at hx
      exact hi.labels x n hx hn

theorem inv_store {w : World} (hi : Inv w) (x : Node) (hx : (x.owner, x.name) ∈ w.given) (hl : x.label = "" ∨ x.label = x.owner) : Inv (w.store x) := by
  refine ⟨hi.unique, hi.proper, hi.named, hi.labels, ?_, ?_, hi.own⟩
  · intro y hy
    rcases List.mem_cons.1 hy with rfl | hy
    · exact List.mem_cons_self
    · exact List.mem_cons_of_mem _ (hi.sub y (List.mem_filter.1 hy).1)
  · intro y hy
    rcases List.mem_cons.1 hy with rfl | hy
    · exact ⟨hx, hl⟩
    · exact hi.nodes y hy

theorem inv_step {w w' : World} (hi : Inv w) (h : Step false w w') : Inv w' := by
  cases h with
  | machine m hm hl => exact inv_relabel hi m none hm (fun n h => (nomatch h))
  | vm m n hn hu =>
    have hu := hu rfl
    refine ⟨?_, ?_, hi.named, ?_, hi.sub, ?_, hi.own⟩
    · intro a b x ha hb
      rcases List.mem_cons.1 ha with ha | ha <;> rcases List.mem_cons.1 hb with hb | hb
      · cases ha; cases hb; rfl
      · cases ha; exact (hu b hb).symm
      · cases hb; exact hu a ha
      · exact hi.unique a b x ha hb
    · intro a x ha
      rcases List.mem_cons.1 ha with ha | ha
      · cases ha; exact hn
      · exact hi.proper a x ha
    · intro a x h1 h2; exact List.mem_cons_of_mem _ (hi.labels a x h1 h2)
    · intro x hx; exact ⟨List.mem_cons_of_mem _ (hi.nodes x hx).1, (hi.nodes x hx).2⟩
  | join m n h1 h2 => exact inv_store hi _ h1 (.inl rfl)
  | rejoin m x h1 h2 =>
    have hx := hi.nodes x (hi.sub x h2)
    have hm : x.owner = m := hi.unique _ _ _ hx.1 h1
    exact inv_store hi _ h1 (hm ▸ hx.2)
  | leave n =>
    exact ⟨hi.unique, hi.proper, hi.named, hi.labels, fun x hx => hi.sub x (List.mem_filter.1 hx).1, hi.nodes, hi.own⟩
  | create e v o old h1 h2 h3 =>
    have hold : ∀ n, v.node = some n → n ≠ "" → (v.name, n) ∈ w.given := fun n h hn => hi.labels v.name n (by rw [h1, h]; exact List.mem_cons_self) hn
    refine inv_relabel hi v.name o.node (hi.named v.name (by rw [h1]; simp)) ?_
    intro n hn hne
    rcases create_node w.given e v o h2 h3 with h | ⟨n', h, h'⟩
    · exact hold n (h ▸ hn) hne
    · rw [h] at hn
      cases hn
      rcases h' with h' | h'
      · exact hold n h' hne
      · exact h'
  | label e v l old view n h1 h2 h3 h4 h5 h6 =>
    have hname : v.name ≠ "" := hi.named v.name (by rw [h1]; simp)
    refine inv_relabel hi v.name (some n) hname ?_
    intro n' hn' hne
    cases hn'
    unfold Termination.labelOf at h6
    split at h6
    · unfold Termination.labelWrite at h6
      split at h6
      · cases h6
      · unfold Termination.nodeName at h6
        rw [h4] at h6
        cases hf : fetch view v.name with
        | some k =>
          rw [hf] at h6
          cases h6
          obtain ⟨x, hx, hx1, hx2⟩ := fetch_some hf
          have := hi.nodes x (h3 x hx)
          rcases this.2 with h | h
          · rw [hx1] at h; exact absurd h hname
          · rw [← hx1, h, ← hx2]; exact this.1
        | none =>
          rw [hf] at h6
          dsimp only at h6
          cases hg : e.getStatus with
          | error t => rw [hg] at h6; cases h6
          | ok k =>
            rw [hg] at h6
            cases h6
            rcases h5 _ hg with h | h
            · exact absurd h hne
            · exact h
    · cases h6
  | sync m l view n h1 h2 h3 h4 h5 =>
    obtain ⟨x, hx, hx1, hx2⟩ := syncName_some h4
    have hx' := hi.nodes x (h3 x hx)
    have hm : (m, x.name) ∈ w.given := by
      cases l with
      | none => exact absurd rfl h2
      | some k => exact hx1 ▸ hi.labels m k h1 h2
    have ho : x.owner = m := hi.unique _ _ _ hx'.1 hm
    rw [hx2]
    exact inv_store hi _ hx'.1 (.inr ho.symm)
  | act v l n h1 h2 h3 =>
    refine ⟨hi.unique, hi.proper, hi.named, hi.labels, hi.sub, hi.nodes, ?_⟩
    intro m k o ho
    rcases List.mem_cons.1 ho with ho | ho
    · simp only [Prod.mk.injEq] at ho
      obtain ⟨rfl, rfl, ho⟩ := ho
      cases hx : w.nodes.find? (fun x => x.name = k) with
      | none => rw [hx] at ho; cases ho
      | some x =>
        rw [hx] at ho
        cases ho
        have hx' := hi.nodes x (hi.sub x (List.mem_of_find?_eq_some hx))
        have hk : x.name = k := by simpa using List.find?_some hx
        rw [hk] at hx'
        have hne := hi.proper _ _ hx'.1
        have : l = some k := by
          have hkn := touched_node h3
          rw [h2] at hkn
          cases l with
          | none => exact absurd hkn hne
          | some j => exact congrArg some hkn.symm
        exact hi.unique _ _ _ hx'.1 (hi.labels v.name k (this ▸ h1) hne)
    · exact hi.own m k o ho

theorem inv_reach {w : World} (h : Reach false w) : Inv w := by
  induction h with
  | start => exact ⟨fun _ _ _ h => (nomatch h), fun _ _ h => (nomatch h), fun _ h => absurd rfl h, fun _ _ h => (nomatch h), fun _ h => (nomatch h), fun _ h => (nomatch h),
      fun _ _ _ h => (nomatch h)⟩
  | step _ hs ih => exact inv_step ih hs

/-! ### Theorems -/

/-- C95, partial: If the provider never gives a node name twice, the termination of a machine acts on no node of another machine – for all interleavings of
creations, terminations, registrations and label writes, with caches that lag behind. Missing: node names that are used again; see
`C95_reused_name_false`. -/
theorem C95_only_own_partial {w : World} (h : Reach false w) : OnlyOwn w := (inv_reach h).own

theorem store_distinct {w : World} (h : w.nodes.Pairwise fun x y => x.name ≠ y.name) (n : Node) :
    (w.store n).nodes.Pairwise fun x y => x.name ≠ y.name := by
  refine List.Pairwise.cons (fun x hx hn => ?_) (h.sublist List.filter_sublist)
  have := (List.mem_filter.1 hx).2
  rw [decide_eq_true_iff] at this
  exact this hn.symm

/-- C95: There is never more than one stored node of a name, also if the provider gives names twice. -/
theorem C95_one_object {reuse : Bool} {w : World} (h : Reach reuse w) : w.nodes.Pairwise fun x y => x.name ≠ y.name := by
  induction h with
  | start => exact List.Pairwise.nil
  | step _ hs ih =>
    cases hs with
    | join m n _ _ => exact store_distinct ih _
    | rejoin m x _ _ => exact store_distinct ih _
    | sync m l view n _ _ _ _ _ => exact store_distinct ih _
    | leave n => exact ih.sublist List.filter_sublist
    | machine => exact ih
    | vm => exact ih
    | create => exact ih
    | label => exact ih
    | act => exact ih

/-- C95: The termination of a machine without a node label finds, by the labels of the nodes or from the provider, only a name given to the machine. -/
theorem C95_found_partial {w : World} (h : Reach false w) (view : List Node) (hv : ∀ x ∈ view, x ∈ w.seen) (m n : String) (hm : m ≠ "") (hf : fetch view m = some n) :
    (m, n) ∈ w.given := by
  obtain ⟨x, hx, h1, h2⟩ := fetch_some hf
  have := (inv_reach h).nodes x (hv x hx)
  rcases this.2 with h3 | h3
  · exact absurd (h1 ▸ h3) hm
  · rw [← h1, h3, ← h2]; exact this.1

/-- C95: A node labelled with the machine's name is found, and the label is there after the machine's name was written; no other part of the node changes. -/
theorem C95_named (view : List Node) (m l : String) (x : Node) (hx : x ∈ view) (hl : x.name = l) (hu : ∀ y ∈ view, y.name = l → y = x) :
    (syncName view m l = some { x with label := m } ∨ (syncName view m l = none ∧ x.label = m)) ∧ (x.label = m → ∃ n, fetch view m = some n) := by
  constructor
  · unfold syncName
    cases hf : view.find? (fun n => n.name = l) with
    | none =>
      rw [List.find?_eq_none] at hf
      exact absurd (by simpa using hl) (hf x hx)
    | some y =>
      have : y = x := hu y (List.mem_of_find?_eq_some hf) (by simpa using List.find?_some hf)
      subst this
      dsimp only
      by_cases h : y.label = m
      · rw [if_pos h]; exact .inr ⟨rfl, h⟩
      · rw [if_neg h]; exact .inl rfl
  · intro h
    unfold fetch
    cases hf : view.find? (fun n => n.label = m) with
    | none =>
      rw [List.find?_eq_none] at hf
      exact absurd (by simpa using h) (hf x hx)
    | some y => exact ⟨y.name, rfl⟩

/-- a machine whose drain is due -/
def draining (m node : String) : Termination.Obj :=
  { name := m, deleting := some 0, node := node, st := { phase := .terminating, desc := "Initiate node drain" } }

theorem draining_touched (m node : String) (h : node ≠ "") : touched (draining m node) = some node := by
  unfold touched draining
  have hd : Termination.decode "Initiate node drain" = some .drain := by decide +kernel
  dsimp only
  rw [if_neg (by decide), if_neg (by decide), hd]
  dsimp only
  rw [if_neg h]

/-- a creation that finds the machine's VM -/
def finding (n : String) : Creation.Env := { status := .ok n "pid" }

/-- a new machine with its finalizer -/
def fresh (m : String) : Creation.Obj := { name := m, finalizer := true }

theorem finding_wrote (m n : String) : (Creation.reconcile (finding n) (fresh m)).wrote = some (Creation.labelled (fresh m) n "pid") := rfl

/-- C95, false part: Node names may be used again, as addresses are. A machine whose VM is gone, and whose node object is gone too, still has its label; a new
VM of another machine gets the same name; the termination of the first machine then drains the node of the second. The second machine
may be created in the ordinary way: no node of that name exists at that time. -/
theorem C95_reused_name_false : ∃ w, Reach true w ∧ ¬ OnlyOwn w := by
  have h0 : Reach true ({} : World) := .start
  have h1 := h0.step (.machine "a" (by decide) rfl)
  have h2 := h1.step (.vm "a" "ip-1" (by decide) (fun h => (nomatch h)))
  have h3 := h2.step (.create (finding "ip-1") (fresh "a") _ [] rfl
    ⟨fun n p h => by cases h; exact List.mem_cons_self, fun t n p h => (nomatch h), fun n p h => (nomatch h)⟩ (finding_wrote "a" "ip-1"))
  have h4 := h3.step (.machine "b" (by decide) rfl)
  have h5 := h4.step (.vm "b" "ip-1" (by decide) (fun h => (nomatch h)))
  have h6 := h5.step (.create (finding "ip-1") (fresh "b") _ [] rfl
    ⟨fun n p h => by cases h; exact List.mem_cons_self, fun t n p h => (nomatch h), fun n p h => (nomatch h)⟩ (finding_wrote "b" "ip-1"))
  have h7 := h6.step (.join "b" "ip-1" List.mem_cons_self (fun x hx => (nomatch hx)))
  have h8 := h7.step (.act (draining "a" "ip-1") (some "ip-1") "ip-1" (by decide) rfl (draining_touched _ _ (by decide)))
  refine ⟨_, h8, ?_⟩
  intro h
  have := h "a" "ip-1" "b" List.mem_cons_self
  revert this
  decide

/-- a machine is terminated, and its own node is drained -/
example : ∃ w, Reach false w ∧ ("a", "ip-1", some "a") ∈ w.acts := by
  have h0 : Reach false ({} : World) := .start
  have h1 := h0.step (.machine "a" (by decide) rfl)
  have h2 := h1.step (.vm "a" "ip-1" (by decide) (fun _ m' h => (nomatch h)))
  have h3 := h2.step (.create (finding "ip-1") (fresh "a") _ [] rfl
    ⟨fun n p h => by cases h; exact List.mem_cons_self, fun t n p h => (nomatch h), fun n p h => (nomatch h)⟩ (finding_wrote "a" "ip-1"))
  have h4 := h3.step (.join "a" "ip-1" List.mem_cons_self (fun x hx => (nomatch hx)))
  have h5 := h4.step (.sync "a" (some "ip-1") [{ name := "ip-1", owner := "a" }] { name := "ip-1", owner := "a", label := "a" } (by decide) (by decide)
    (fun x hx => hx) rfl ⟨_, List.mem_cons_self, rfl, rfl⟩)
  have h6 := h5.step (.act (draining "a" "ip-1") (some "ip-1") "ip-1" (by decide) rfl (draining_touched _ _ (by decide)))
  exact ⟨_, h6, List.mem_cons_self⟩

end MCM.OwnNode
