import Verif.Model.Orphan
import Mathlib.Data.List.Forall2
/-!
C27: the safety loop deletes only orphan VMs. C62: nodes that belong to no machine are marked.
-/
namespace MCM.Orphan

/-- a VM that belongs to none of these machines, written down without the model's functions -/
def IsOrphan (machines : List Mach) (id name : String) : Prop :=
  ∀ m ∈ machines, m.name = name → m.pid ≠ id ∧ m.phase ≠ .empty ∧ m.phase ≠ .crashLoopBackOff

theorem should_iff (id : String) (l : Lookup) :
    shouldDelete id l = true ↔ l = .notFound ∨ ∃ m, l = .found m ∧ m.pid ≠ id ∧ m.phase ≠ .empty ∧ m.phase ≠ .crashLoopBackOff := by
  cases l with
  | failed => simp [shouldDelete]
  | notFound => simp [shouldDelete]
  | found m =>
    unfold shouldDelete
    dsimp only
    by_cases h1 : m.pid = id
    · simp [h1]
    · by_cases h2 : m.phase = .empty ∨ m.phase = .crashLoopBackOff
      · rw [if_neg h1, if_pos h2]
        simp
        intro _ h3
        rcases h2 with h2 | h2
        · exact absurd h2 h3
        · exact h2
      · rw [if_neg h1, if_neg h2]
        simp only [true_iff]
        exact .inr ⟨m, rfl, h1, fun h => h2 (.inl h), fun h => h2 (.inr h)⟩

theorem class_deletes {lookup : String → Lookup} {c : Class} {v : String × String} (h : v ∈ (checkClass lookup c).deletes) :
    v ∈ c.vms ∧ shouldDelete v.1 (lookup v.2) = true := by
  unfold checkClass at h
  repeat' split at h
  · cases h
  · cases h
  · cases h
  · exact List.mem_filter.1 h

theorem classes_deletes {lookup : String → Lookup} : ∀ {cs : List Class} {v : String × String},
    v ∈ (checkClasses lookup cs).deletes → ∃ c ∈ cs, v ∈ c.vms ∧ shouldDelete v.1 (lookup v.2) = true
  | [], v, h => (nomatch h)
  | c :: cs, v, h => by
    rw [checkClasses] at h
    dsimp only at h
    split at h
    · exact ⟨c, List.mem_cons_self, class_deletes h⟩
    · rcases List.mem_append.1 h with h | h
      · exact ⟨c, List.mem_cons_self, class_deletes h⟩
      · obtain ⟨d, hd, h'⟩ := classes_deletes h
        exact ⟨d, List.mem_cons_of_mem _ hd, h'⟩

theorem inCache_found {cache : List Mach} {name : String} {m : Mach} (h : inCache cache name = .found m) : m ∈ cache ∧ m.name = name := by
  unfold inCache at h
  split at h
  · rename_i m' he
    cases h
    exact ⟨List.mem_of_find?_eq_some he, by simpa using List.find?_some he⟩
  · cases h

theorem inCache_none {cache : List Mach} {name : String} (h : inCache cache name = .notFound) : ∀ m ∈ cache, m.name ≠ name := by
  unfold inCache at h
  split at h
  · cases h
  · rename_i he
    intro m hm
    have := List.find?_eq_none.1 he m hm
    simpa using this

/-- C27: Only VMs listed by a provider are deleted, and only if no machine of that name was found or the one found has another
provider id and is past creation. Whatever the lookups answer; in particular a failing lookup deletes nothing. -/
theorem C27_deletes_only (lookup : String → Lookup) (cs : List Class) (id name : String)
    (h : (id, name) ∈ (checkClasses lookup cs).deletes) :
    (∃ c ∈ cs, (id, name) ∈ c.vms) ∧ lookup name ≠ .failed ∧
    ∀ m, lookup name = .found m → m.pid ≠ id ∧ m.phase ≠ .empty ∧ m.phase ≠ .crashLoopBackOff := by
  obtain ⟨c, hc, hv, hs⟩ := classes_deletes h
  refine ⟨⟨c, hc, hv⟩, ?_, ?_⟩
  · intro he
    rw [he] at hs
    cases hs
  · intro m he
    rcases (should_iff id (lookup name)).1 hs with h' | ⟨m', h', h''⟩
    · rw [he] at h'; cases h'
    · rw [he] at h'
      cases h'
      exact h''

/-- C27: With the machines the cache holds (one per name), only orphans are deleted. -/
theorem C27_only_orphans (cache : List Mach) (huniq : ∀ m ∈ cache, ∀ m' ∈ cache, m.name = m'.name → m = m') (cs : List Class)
    (id name : String) (h : (id, name) ∈ (checkClasses (inCache cache) cs).deletes) : IsOrphan cache id name := by
  intro m hm hn
  have hd := (C27_deletes_only _ cs id name h).2.2
  cases he : inCache cache name with
  | failed => unfold inCache at he; split at he <;> cases he
  | notFound => exact absurd hn (inCache_none he m hm)
  | found m' =>
    obtain ⟨hm', hn'⟩ := inCache_found he
    have : m = m' := huniq m hm m' hm' (hn.trans hn'.symm)
    subst this
    exact hd m he

/-- C27: A VM recorded in the cache as the VM of the machine with its name is not deleted. -/
theorem C27_recorded_kept (cache : List Mach) (huniq : ∀ m ∈ cache, ∀ m' ∈ cache, m.name = m'.name → m = m') (cs : List Class)
    (m : Mach) (hm : m ∈ cache) : (m.pid, m.name) ∉ (checkClasses (inCache cache) cs).deletes := fun h =>
  (C27_only_orphans cache huniq cs m.pid m.name h m hm rfl).1 rfl

/-- C27: This is also the case if the cache is behind: it is enough that the cache holds some version of the machine, and that
the provider id was recorded before the machine left the phases of its creation. `versions`: all versions there ever were. -/
theorem C27_behind_kept (cache : List Mach) (cs : List Class) (name id : String) (versions : List Mach)
    (hver : ∀ v ∈ versions, v.phase ≠ .empty → v.phase ≠ .crashLoopBackOff → v.pid = id)
    (m : Mach) (hc : inCache cache name = .found m) (hm : m ∈ versions) :
    (id, name) ∉ (checkClasses (inCache cache) cs).deletes := by
  intro h
  obtain ⟨h1, h2, h3⟩ := (C27_deletes_only _ cs id name h).2.2 m hc
  exact h1 (hver m hm h2 h3)

example : ("vm-1", "m") ∉ (checkClasses (inCache [{ name := "m" }]) [{ vms := [("vm-1", "m")] }]).deletes :=
  C27_behind_kept _ _ "m" "vm-1" [{ name := "m" }, { name := "m", pid := "vm-1" }, { name := "m", pid := "vm-1", phase := .pending }]
    (by decide) { name := "m" } (by decide) (by decide)

theorem checkClasses_no_err {lookup : String → Lookup} : ∀ {cs : List Class}, (∀ c ∈ cs, c.secretOk = true ∧ c.listOk = true ∧ c.synced = true) →
    ∀ {v : String × String}, (∃ c ∈ cs, v ∈ c.vms) → shouldDelete v.1 (lookup v.2) = true → v ∈ (checkClasses lookup cs).deletes
  | [], _, _, ⟨_, h, _⟩, _ => (nomatch h)
  | c :: cs, hok, v, ⟨d, hd, hv⟩, hs => by
    obtain ⟨h1, h2, h3⟩ := hok c List.mem_cons_self
    have hcd : checkClass lookup c = { deletes := c.vms.filter fun v => shouldDelete v.1 (lookup v.2) } := by
      unfold checkClass
      simp [h1, h2, h3]
    rw [checkClasses, hcd]
    dsimp only
    rw [if_neg (by simp)]
    rcases List.mem_cons.1 hd with rfl | hd
    · exact List.mem_append_left _ (List.mem_filter.2 ⟨hv, hs⟩)
    · exact List.mem_append_right _ (checkClasses_no_err (fun c hc => hok c (List.mem_cons_of_mem _ hc)) ⟨d, hd, hv⟩ hs)

/-- C27: If no errors occur, a delete request is sent for every orphan listed for any class. -/
theorem C27_complete (cache : List Mach) (cs : List Class) (hok : ∀ c ∈ cs, c.secretOk = true ∧ c.listOk = true ∧ c.synced = true)
    (id name : String) (hl : ∃ c ∈ cs, (id, name) ∈ c.vms) (ho : IsOrphan cache id name) :
    (id, name) ∈ (checkClasses (inCache cache) cs).deletes := by
  refine checkClasses_no_err hok hl ?_
  show shouldDelete id (inCache cache name) = true
  rw [should_iff]
  cases he : inCache cache name with
  | failed => unfold inCache at he; split at he <;> cases he
  | notFound => exact .inl rfl
  | found m =>
    obtain ⟨hm, hn⟩ := inCache_found he
    exact .inr ⟨m, rfl, ho m hm hn⟩

example : ("vm-2", "gone") ∈ (checkClasses (inCache [{ name := "m", pid := "vm-1", phase := .running }])
    [{ vms := [("vm-1", "m"), ("vm-2", "gone")] }]).deletes ∧
    ("vm-1", "m") ∉ (checkClasses (inCache [{ name := "m", pid := "vm-1", phase := .running }])
    [{ vms := [("vm-1", "m"), ("vm-2", "gone")] }]).deletes := by decide

/-- C27, false part: The lookups are made in the cache, and waiting for it only makes sure that it was filled once. If it does not
hold a machine which exists (as after a restart, when it was filled by an API server that is behind), the VM of that running
machine is deleted. -/
theorem C27_behind_cache_false : ¬ ∀ (cache api : List Mach) (cs : List Class) (m : Mach), m ∈ api →
    (m.pid, m.name) ∉ (checkClasses (inCache cache) cs).deletes := by
  intro h
  exact h [] [{ name := "m", pid := "vm-1", phase := .running }] [{ vms := [("vm-1", "m")] }]
    { name := "m", pid := "vm-1", phase := .running } (by decide) (by decide)

/-- C27, false part: The first class for which an error occurs ends the pass: orphans of the other classes are not deleted as long
as it lasts. -/
theorem C27_failing_class_blocks_false : ¬ ∀ (cache : List Mach) (cs : List Class) (c : Class), c ∈ cs → c.secretOk = true →
    c.listOk = true → c.synced = true → ∀ id name, (id, name) ∈ c.vms → IsOrphan cache id name →
    (id, name) ∈ (checkClasses (inCache cache) cs).deletes := by
  intro h
  exact absurd (h [] [{ listOk := false }, { vms := [("vm-1", "gone")] }] { vms := [("vm-1", "gone")] } (by simp) rfl rfl rfl
    "vm-1" "gone" (by decide) (fun m hm => (nomatch hm))) (by decide)

/-! ## C62 -/

/-- the machines that claim the node -/
def claimants (cache : List Mach) (node : String) : List Mach := cache.filter fun m => m.node = some node

/-- the node is marked as not managed -/
def Marked (n : Node) : Prop := n.annotations.has "node.machine.sapcloud.io/not-managed-by-mcm" = true

/-- what must be stored for a node after a pass, as a relation -/
structure Settled (cache : List Mach) (now timeout : Int) (old new : Node) : Prop where
  name : new.name = old.name
  created : new.created = old.created
  others : ∀ k, k ≠ "node.machine.sapcloud.io/not-managed-by-mcm" → List.lookup k new.annotations = List.lookup k old.annotations
  /-- a node of exactly one machine is not marked -/
  managed : (claimants cache old.name).length = 1 → ¬ Marked new
  /-- a node of no machine that is old enough is marked -/
  unmanaged : claimants cache old.name = [] → old.created < now - timeout → Marked new
  /-- a young node without machine keeps what it has -/
  young : claimants cache old.name = [] → ¬ old.created < now - timeout → new = old
  /-- a node of several machines keeps what it has -/
  several : 1 < (claimants cache old.name).length → new = old

theorem lookup_filter_ne (k k' : String) (h : k ≠ k') : ∀ l : SMap, List.lookup k (l.filter fun e => e.1 != k') = List.lookup k l
  | [] => rfl
  | (a, b) :: l => by
    by_cases ha : a = k'
    · have : ((a, b) :: l).filter (fun e => e.1 != k') = l.filter (fun e => e.1 != k') := by simp [ha]
      rw [this, lookup_filter_ne k k' h l, List.lookup_cons]
      have : (k == a) = false := by simp [ha, h]
      rw [this]
    · have : ((a, b) :: l).filter (fun e => e.1 != k') = (a, b) :: l.filter (fun e => e.1 != k') := by simp [ha]
      rw [this, List.lookup_cons, List.lookup_cons, lookup_filter_ne k k' h l]

theorem lookup_filter_self (k : String) : ∀ l : SMap, List.lookup k (l.filter fun e => e.1 != k) = none
  | [] => rfl
  | (a, b) :: l => by
    by_cases ha : a = k
    · have : ((a, b) :: l).filter (fun e => e.1 != k) = l.filter (fun e => e.1 != k) := by simp [ha]
      rw [this, lookup_filter_self k l]
    · have : ((a, b) :: l).filter (fun e => e.1 != k) = (a, b) :: l.filter (fun e => e.1 != k) := by simp [ha]
      rw [this, List.lookup_cons, lookup_filter_self k l]
      have : (k == a) = false := by simpa using fun e => ha e.symm
      rw [this]

theorem desired_settled (cache : List Mach) (now timeout : Int) (n : Node) :
    Settled cache now timeout n ((desired cache now timeout n).getD n) := by
  unfold desired
  have hcl : machinesOf cache n.name = claimants cache n.name := rfl
  rw [hcl]
  cases hc : claimants cache n.name with
  | nil =>
    dsimp only
    split
    · rename_i hy
      exact ⟨rfl, rfl, fun _ _ => rfl, by simp [hc], fun _ hy' => absurd hy' hy, fun _ _ => rfl, by simp [hc]⟩
    · rename_i hy
      have hy := Decidable.not_not.1 hy
      split
      · rename_i hm
        exact ⟨rfl, rfl, fun _ _ => rfl, by simp [hc], fun _ _ => hm, fun _ _ => rfl, by simp [hc]⟩
      · refine ⟨rfl, rfl, fun k hk => ?_, by simp [hc], fun _ _ => ?_, fun _ hy' => absurd hy hy', by simp [hc]⟩
        · show List.lookup k ((notManaged, "1") :: _) = _
          rw [List.lookup_cons]
          have hk : k ≠ notManaged := hk
          have : (k == notManaged) = false := by simp [hk]
          rw [this]
          exact lookup_filter_ne k _ hk _
        · show (List.lookup notManaged ((notManaged, "1") :: _)).isSome = true
          rw [List.lookup_cons]
          simp
  | cons m ms =>
    cases ms with
    | nil =>
      dsimp only
      split
      · refine ⟨rfl, rfl, fun k hk => lookup_filter_ne k _ hk _, fun _ => ?_, by simp [hc], by simp [hc], by simp [hc]⟩
        show ¬ (List.lookup notManaged (n.annotations.filter fun e => e.1 != notManaged)).isSome = true
        rw [lookup_filter_self]
        simp
      · rename_i hm
        exact ⟨rfl, rfl, fun _ _ => rfl, fun _ => hm, by simp [hc], by simp [hc], by simp [hc]⟩
    | cons m' ms => exact ⟨rfl, rfl, fun _ _ => rfl, by simp [hc], by simp [hc], by simp [hc], fun _ => rfl⟩

/-- C62: If no update fails, every node is settled. -/
theorem C62_nodes_settled_partial (cache : List Mach) (now timeout : Int) (ok : String → Bool) : ∀ (nodes : List Node),
    (∀ n ∈ nodes, ok n.name = true) →
    (annotate cache now timeout ok nodes).err = false ∧
    List.Forall₂ (Settled cache now timeout) nodes (annotate cache now timeout ok nodes).nodes
  | [], _ => ⟨rfl, .nil⟩
  | n :: ns, h => by
    obtain ⟨h1, h3⟩ := C62_nodes_settled_partial cache now timeout ok ns fun n hn => h n (List.mem_cons_of_mem _ hn)
    have hok := h n List.mem_cons_self
    have hs := desired_settled cache now timeout n
    rw [annotate]
    cases hd : desired cache now timeout n with
    | none => rw [hd] at hs; exact ⟨h1, .cons hs h3⟩
    | some n' =>
      rw [hd] at hs
      dsimp only
      rw [if_pos hok]
      exact ⟨h1, .cons hs h3⟩

/-- C62: A pass that reports no error has settled every node; one that does has settled the nodes up to some node, and left it and the following as they were. -/
theorem C62_reported (cache : List Mach) (now timeout : Int) (ok : String → Bool) : ∀ (nodes : List Node),
    ((annotate cache now timeout ok nodes).err = false → List.Forall₂ (Settled cache now timeout) nodes (annotate cache now timeout ok nodes).nodes) ∧
    ((annotate cache now timeout ok nodes).err = true → ∃ done done' n rest, nodes = done ++ n :: rest ∧ (annotate cache now timeout ok nodes).nodes = done' ++ n :: rest ∧
      List.Forall₂ (Settled cache now timeout) done done' ∧ ok n.name = false)
  | [] => ⟨fun _ => .nil, fun h => (by cases h)⟩
  | n :: ns => by
    obtain ⟨h1, h2⟩ := C62_reported cache now timeout ok ns
    have hs := desired_settled cache now timeout n
    rw [annotate]
    have more : ∀ n', Settled cache now timeout n n' →
        ((annotate cache now timeout ok ns).err = false → List.Forall₂ (Settled cache now timeout) (n :: ns) (n' :: (annotate cache now timeout ok ns).nodes)) ∧
        ((annotate cache now timeout ok ns).err = true → ∃ done done' m rest, n :: ns = done ++ m :: rest ∧ n' :: (annotate cache now timeout ok ns).nodes = done' ++ m :: rest ∧
          List.Forall₂ (Settled cache now timeout) done done' ∧ ok m.name = false) := by
      intro n' hn
      refine ⟨fun h => .cons hn (h1 h), fun h => ?_⟩
      obtain ⟨done, done', m, rest, a, b, c, d⟩ := h2 h
      exact ⟨n :: done, n' :: done', m, rest, by rw [a]; rfl, by rw [b]; rfl, .cons hn c, d⟩
    cases hd : desired cache now timeout n with
    | none => rw [hd] at hs; exact more n hs
    | some n' =>
      rw [hd] at hs
      dsimp only
      cases hok : ok n.name with
      | true => rw [if_pos rfl]; exact more n' hs
      | false =>
        rw [if_neg (by simp)]
        exact ⟨fun h => (by cases h), fun _ => ⟨[], [], n, ns, rfl, rfl, .nil, hok⟩⟩

example : (annotate [{ name := "m", node := some "a" }] 1000 600 (fun _ => true)
    [{ name := "a", annotations := [(notManaged, "1"), ("x", "y")] }, { name := "b", annotations := [("x", "y")] }, { name := "c", created := 900 }]).nodes
    = [{ name := "a", annotations := [("x", "y")] }, { name := "b", annotations := [(notManaged, "1"), ("x", "y")] },
       { name := "c", created := 900 }] := by decide +kernel

/-- C62: Whatever fails, nothing but this annotation of a node ever changes, a node in use by a machine is never newly marked, and
an annotation is removed only from a node of exactly one machine. -/
theorem C62_nothing_else_changes (cache : List Mach) (now timeout : Int) (ok : String → Bool) : ∀ (nodes : List Node),
    List.Forall₂ (fun old new => new = old ∨ Settled cache now timeout old new) nodes (annotate cache now timeout ok nodes).nodes
  | [] => .nil
  | n :: ns => by
    have hrefl : ∀ l : List Node, List.Forall₂ (fun old new => new = old ∨ Settled cache now timeout old new) l l := by
      intro l
      induction l with
      | nil => exact .nil
      | cons a l ih => exact .cons (.inl rfl) ih
    have ih := C62_nothing_else_changes cache now timeout ok ns
    have hs := desired_settled cache now timeout n
    rw [annotate]
    cases hd : desired cache now timeout n with
    | none => exact .cons (.inl rfl) ih
    | some n' =>
      rw [hd] at hs
      dsimp only
      split
      · exact .cons (.inr hs) ih
      · exact hrefl _

/-- C62, false part: One node that cannot be updated keeps the nodes behind it from being marked. -/
theorem C62_failing_node_blocks_false : ¬ ∀ (cache : List Mach) (now timeout : Int) (ok : String → Bool) (nodes : List Node) (n : Node),
    n ∈ nodes → ok n.name = true → claimants cache n.name = [] → n.created < now - timeout →
    ∃ n' ∈ (annotate cache now timeout ok nodes).nodes, n'.name = n.name ∧ Marked n' := by
  intro h
  obtain ⟨n', hn, hname, hm⟩ := h [] 1000 600 (fun n => n == "b") [{ name := "a" }, { name := "b" }] { name := "b" } (by decide) (by decide)
    rfl (by decide)
  rw [show (annotate [] 1000 600 (fun n => n == "b") [{ name := "a" }, { name := "b" }]).nodes = [{ name := "a" }, { name := "b" }] from
    by decide +kernel] at hn
  rcases List.mem_cons.1 hn with rfl | hn
  · exact absurd hm (by unfold Marked; decide)
  · rw [List.mem_singleton.1 hn] at hm
    exact absurd hm (by unfold Marked; decide)

end MCM.Orphan
