import Verif.Model.RolloutNodes
import Verif.Props.Taints
import Verif.Lemmas.SMap
/-!
C65: nodes of old machine sets are tainted during a rolling update, and the taint is removed by a rollback.
C66: nodes are protected from the cluster autoscaler during a rolling update, and only then.
-/
namespace MCM.RolloutNodes
open Taints

/-! ### loops over nodes -/

def iter (f : Node → Node) : Nat → Node → Node
  | 0, n => n
  | k + 1, n => iter f k (f n)

/-- a loop applying `f` to the nodes named -/
def editAll (f : Node → Node) (ok : Ok) (ns : Nodes) : List String → Nodes
  | [] => ns
  | m :: ms => editAll f ok (if m ≠ "" then (match ns m with | none => ns | some n => if ok m then ns.put m (f n) else ns) else ns) ms

theorem iter_add (f : Node → Node) : ∀ (a b : Nat) (n : Node), iter f b (iter f a n) = iter f (a + b) n
  | 0, b, n => by rw [Nat.zero_add]; rfl
  | a + 1, b, n => by
    rw [show a + 1 + b = (a + b) + 1 from by omega]
    exact iter_add f a b (f n)

theorem iter_idem (f : Node → Node) (n : Node) (h : f (f n) = f n) : ∀ k, iter f (k + 1) n = f n
  | 0 => rfl
  | k + 1 => by
    show iter f k (f (f n)) = f n
    rw [h]
    exact iter_idem f n h k

/-- what is known of a node after edits by `f`: `k` of them; at least one if `must`, none unless `may` -/
def Edited (f : Node → Node) (ns ns' : Nodes) (name : String) (may must : Prop) : Prop :=
  ∃ k, ns' name = (ns name).map (iter f k) ∧ (0 < k → may) ∧ (must → 0 < k)

theorem Edited.refl (f : Node → Node) (ns : Nodes) (name : String) (may must : Prop) (h : ¬ must) : Edited f ns ns name may must :=
  ⟨0, by cases h : ns name <;> rfl, fun h => absurd h (Nat.lt_irrefl 0), fun h' => absurd h' h⟩

theorem Edited.trans {f : Node → Node} {ns ns' ns'' : Nodes} {name : String} {may1 may2 must1 must2 may must : Prop}
    (h1 : Edited f ns ns' name may1 must1) (h2 : Edited f ns' ns'' name may2 must2) (hmay : may1 ∨ may2 → may) (hmust : must → must1 ∨ must2) :
    Edited f ns ns'' name may must := by
  obtain ⟨a, ha, ha1, ha2⟩ := h1
  obtain ⟨b, hb, hb1, hb2⟩ := h2
  refine ⟨a + b, ?_, fun h => ?_, fun h => ?_⟩
  · rw [hb, ha, Option.map_map]
    congr 1
    funext n
    exact iter_add f a b n
  · by_cases h0 : 0 < a
    · exact hmay (.inl (ha1 h0))
    · exact hmay (.inr (hb1 (by omega)))
  · rcases hmust h with h | h
    · have := ha2 h; omega
    · have := hb2 h; omega

theorem editAll_spec (f : Node → Node) (ok : Ok) (name : String) : ∀ (ms : List String) (ns : Nodes),
    Edited f ns (editAll f ok ns ms) name (name ∈ ms ∧ name ≠ "" ∧ ok name = true) (name ∈ ms ∧ name ≠ "" ∧ ok name = true)
  | [], ns => Edited.refl _ _ _ _ _ (fun h => by cases h.1)
  | m :: ms, ns => by
    rw [editAll]
    refine Edited.trans (may1 := name = m ∧ name ≠ "" ∧ ok name = true) (must1 := name = m ∧ name ≠ "" ∧ ok name = true) ?_ (editAll_spec f ok name ms _) ?_ ?_
    · by_cases hm : m = ""
      · rw [if_neg (not_not_intro hm)]
        exact Edited.refl _ _ _ _ _ (fun h => h.2.1 (h.1.trans hm))
      · rw [if_pos hm]
        cases hn : ns m with
        | none =>
          dsimp only
          by_cases hmn : name = m
          · subst hmn
            by_cases hok : ok name = true
            · exact ⟨1, by rw [hn]; rfl, fun _ => ⟨rfl, hm, hok⟩, fun _ => Nat.one_pos⟩
            · exact Edited.refl _ _ _ _ _ (fun h => hok h.2.2)
          · exact Edited.refl _ _ _ _ _ (fun h => hmn h.1)
        | some n =>
          dsimp only
          by_cases hok : ok m = true
          · rw [if_pos hok]
            by_cases hmn : name = m
            · subst hmn
              refine ⟨1, ?_, fun _ => ⟨rfl, hm, hok⟩, fun _ => Nat.one_pos⟩
              unfold Nodes.put
              rw [if_pos rfl, hn]
              rfl
            · refine ⟨0, ?_, fun h => absurd h (Nat.lt_irrefl 0), fun h => absurd h.1 hmn⟩
              unfold Nodes.put
              rw [if_neg hmn]
              cases ns name <;> rfl
          · rw [if_neg hok]
            exact Edited.refl _ _ _ _ _ (fun h => hok (h.1 ▸ h.2.2))
    · rintro (h | h)
      · exact ⟨h.1 ▸ List.mem_cons_self, h.2⟩
      · exact ⟨List.mem_cons_of_mem _ h.1, h.2⟩
    · rintro ⟨h, h2⟩
      rcases List.mem_cons.1 h with h | h
      · exact .inl ⟨h, h2⟩
      · exact .inr ⟨h, h2⟩

/-! ### C65 -/

def addOld (n : Node) : Node := { n with taints := (addOrUpdate n.taints oldTaint).1 }
def dropOld (n : Node) : Node := { n with taints := (remove n.taints oldTaint).1 }

theorem taintMachines_eq (ok : Ok) : ∀ (ms : List String) (ns : Nodes), taintMachines ok ns ms = editAll addOld ok ns ms
  | [], _ => rfl
  | m :: ms, ns => by rw [taintMachines, editAll, taintMachines_eq ok ms]; rfl

theorem untaintMachines_eq (ok : Ok) : ∀ (ms : List String) (ns : Nodes), untaintMachines ok ns ms = editAll dropOld ok ns ms
  | [], _ => rfl
  | m :: ms, ns => by rw [untaintMachines, editAll, untaintMachines_eq ok ms]; rfl

theorem taintSets_spec (ok : Ok) (attempts : String → List (Bool × Bool)) (name : String) : ∀ (ss : List MSet) (ns : Nodes),
    Edited addOld ns (taintSets ok attempts ns ss).1 name (∃ s ∈ ss, s.marked = false ∧ name ∈ s.machines)
      ((taintSets ok attempts ns ss).2.2 = true ∧ name ≠ "" ∧ ok name = true ∧ ∃ s ∈ ss, s.marked = false ∧ name ∈ s.machines)
  | [], ns => Edited.refl _ _ _ _ _ (fun ⟨_, _, _, s, hs, _⟩ => by cases hs)
  | s :: ss, ns => by
    by_cases hm : s.marked = true
    · have he : taintSets ok attempts ns (s :: ss) = taintSets ok attempts ns ss := by
        rw [taintSets, if_pos hm]
      rw [he]
      obtain ⟨k, h1, h2, h3⟩ := taintSets_spec ok attempts name ss ns
      refine ⟨k, h1, fun h => ?_, fun h => ?_⟩
      · obtain ⟨t, ht, h⟩ := h2 h
        exact ⟨t, List.mem_cons_of_mem _ ht, h⟩
      · obtain ⟨ha, hb, hc, t, ht, h'⟩ := h
        rcases List.mem_cons.1 ht with rfl | ht
        · rw [hm] at h'; cases h'.1
        · exact h3 ⟨ha, hb, hc, t, ht, h'⟩
    · have hm' : s.marked = false := by simpa using hm
      have hspec := editAll_spec addOld ok name s.machines ns
      rw [← taintMachines_eq] at hspec
      by_cases hk : markSet (attempts s.name) = true
      · have he : taintSets ok attempts ns (s :: ss) = ((taintSets ok attempts (taintMachines ok ns s.machines) ss).1,
            s.name :: (taintSets ok attempts (taintMachines ok ns s.machines) ss).2.1, (taintSets ok attempts (taintMachines ok ns s.machines) ss).2.2) := by
          rw [taintSets, if_neg hm]; dsimp only; rw [if_pos hk]
        rw [he]
        refine Edited.trans hspec (taintSets_spec ok attempts name ss _) ?_ ?_
        · rintro (h | ⟨t, ht, h⟩)
          · exact ⟨s, List.mem_cons_self, hm', h.1⟩
          · exact ⟨t, List.mem_cons_of_mem _ ht, h⟩
        · rintro ⟨ha, hb, hc, t, ht, h⟩
          rcases List.mem_cons.1 ht with rfl | ht
          · exact .inl ⟨h.2, hb, hc⟩
          · exact .inr ⟨ha, hb, hc, t, ht, h⟩
      · have he : taintSets ok attempts ns (s :: ss) = (taintMachines ok ns s.machines, [], false) := by
          rw [taintSets, if_neg hm]; dsimp only; rw [if_neg hk]
        rw [he]
        obtain ⟨k, h1, h2, _⟩ := hspec
        exact ⟨k, h1, fun h => ⟨s, List.mem_cons_self, hm', (h2 h).1⟩, fun h => by cases h.1⟩

/-- the taint that nodes of old sets are to have -/
def avoid : Taint := { key := "deployment.machine.sapcloud.io/prefer-no-schedule", value := "True", effect := "PreferNoSchedule" }

/-- taints of others -/
def others (l : List Taint) : List Taint := l.filter fun u => ¬ Same avoid u

/-- the node `n'` is `n` but for the taint of old nodes -/
def SameButTaint (n n' : Node) : Prop := n'.annotations = n.annotations ∧ others n'.taints = others n.taints

theorem addOld_same (n : Node) : SameButTaint n (addOld n) := ⟨rfl, C42_add_others_kept n.taints oldTaint⟩

theorem iter_same (f : Node → Node) (hf : ∀ n, SameButTaint n (f n)) : ∀ k n, SameButTaint n (iter f k n)
  | 0, n => ⟨rfl, rfl⟩
  | k + 1, n => by
    obtain ⟨a, b⟩ := iter_same f hf k (f n)
    obtain ⟨c, d⟩ := hf n
    exact ⟨a.trans c, b.trans d⟩

theorem addOld_mem (n : Node) (h : Valid n.taints) : oldTaint ∈ (addOld n).taints := by
  have := C42_add_exactly_one n.taints h oldTaint
  have hm : oldTaint ∈ (addOrUpdate n.taints oldTaint).1.filter (fun u => Same oldTaint u) := by rw [this]; exact List.mem_singleton.2 rfl
  exact (List.mem_filter.1 hm).1

theorem addOld_idem (n : Node) (h : Valid n.taints) : addOld (addOld n) = addOld n := by
  have h1 := addOld_mem n h
  have : (addOrUpdate (addOld n).taints oldTaint).1 = (addOld n).taints := by
    have key : ∀ (l acc : List Taint) (b : Bool), oldTaint ∈ l → addLoop oldTaint l acc b = none ∨ (∃ u ∈ l, Same oldTaint u ∧ u ≠ oldTaint) := by
      intro l
      induction l with
      | nil => intro _ _ h; cases h
      | cons a l ih =>
        intro acc b hm
        rw [addLoop]
        by_cases hs : oldTaint.matches a = true
        · rw [if_pos hs]
          by_cases he : oldTaint = a
          · rw [if_pos he]; exact .inl rfl
          · exact .inr ⟨a, List.mem_cons_self, (matches_iff _ _).1 hs, fun e => he e.symm⟩
        · rw [if_neg hs]
          rcases List.mem_cons.1 hm with rfl | hm
          · exact absurd ((matches_iff _ _).2 (same_self _)) hs
          · rcases ih (acc ++ [a]) b hm with h | ⟨u, hu, h⟩
            · exact .inl h
            · exact .inr ⟨u, List.mem_cons_of_mem _ hu, h⟩
    rcases key (addOld n).taints [] false h1 with he | ⟨u, hu, hs, hne⟩
    · unfold addOrUpdate
      rw [he]
    · exfalso
      have h2 := C42_add_exactly_one n.taints h oldTaint
      have h3 : u ∈ (addOrUpdate n.taints oldTaint).1.filter (fun u => Same oldTaint u) := List.mem_filter.2 ⟨hu, by simpa using hs⟩
      rw [h2] at h3
      exact hne (List.mem_singleton.1 h3)
  show { addOld n with taints := (addOrUpdate (addOld n).taints oldTaint).1 } = addOld n
  rw [this]

/-- C65: When the requests succeed, every node of an old set that was not marked before has the taint afterwards; taints of others and
the annotations are as before. The full statement, without the condition on the mark, is refuted below. -/
theorem C65_old_nodes_tainted_partial (ok : Ok) (attempts : String → List (Bool × Bool)) (ns : Nodes) (ss : List MSet)
    (hok : ∀ n, ok n = true) (h : (taintSets ok attempts ns ss).2.2 = true) (s : MSet) (hs : s ∈ ss) (hm : s.marked = false)
    (name : String) (hn : name ∈ s.machines) (hne : name ≠ "") (n : Node) (hnode : ns name = some n) (hv : Valid n.taints) :
    ∃ n', (taintSets ok attempts ns ss).1 name = some n' ∧ avoid ∈ n'.taints ∧ SameButTaint n n' := by
  obtain ⟨k, h1, _, h3⟩ := taintSets_spec ok attempts name ss ns
  have hk := h3 ⟨h, hne, hok name, s, hs, hm, hn⟩
  obtain ⟨j, rfl⟩ := Nat.exists_eq_succ_of_ne_zero (Nat.ne_of_gt hk)
  refine ⟨_, by rw [h1, hnode]; rfl, ?_, iter_same _ addOld_same _ _⟩
  rw [iter_idem addOld n (addOld_idem n hv)]
  exact addOld_mem n hv

/-- C65: Whatever fails: no node outside the unmarked old sets is touched, and nothing but this taint changes. -/
theorem C65_nothing_else (ok : Ok) (attempts : String → List (Bool × Bool)) (ns : Nodes) (ss : List MSet) (name : String) :
    ((¬ ∃ s ∈ ss, s.marked = false ∧ name ∈ s.machines) → (taintSets ok attempts ns ss).1 name = ns name) ∧
    ((taintSets ok attempts ns ss).1 name = none ↔ ns name = none) ∧
    ∀ n n', ns name = some n → (taintSets ok attempts ns ss).1 name = some n' → SameButTaint n n' := by
  obtain ⟨k, h1, h2, _⟩ := taintSets_spec ok attempts name ss ns
  refine ⟨fun h => ?_, ?_, fun n n' hn hn' => ?_⟩
  · have : k = 0 := Nat.eq_zero_of_not_pos fun h' => h (h2 h')
    rw [h1, this]
    cases ns name <;> rfl
  · rw [h1, Option.map_eq_none_iff]
  · rw [h1, hn] at hn'
    cases hn'
    exact iter_same _ addOld_same _ _

/-- the machine sets as they are after a pass -/
def remark (marked : List String) (s : MSet) : MSet := { s with marked := s.marked || marked.contains s.name }

/-- C65, false part: A node that could not be tainted is not tried again, since its set is marked all the same. -/
theorem C65_failed_taint_not_retried_false : ¬ ∀ (ok : Ok) (att : String → List (Bool × Bool)) (ns : Nodes) (s : MSet) (name : String),
    s.marked = false → name ∈ s.machines → name ≠ "" → (∃ n, ns name = some n ∧ Valid n.taints) →
    let r := taintSets ok att ns [s]
    ∃ n', (taintSets (fun _ => true) att r.1 [remark r.2.1 s]).1 name = some n' ∧ avoid ∈ n'.taints := by
  intro h
  obtain ⟨n', h1, h2⟩ := h (fun _ => false) (fun _ => [(true, true)]) (fun k => if k = "n" then some {} else none) { name := "s", machines := ["n"] } "n" rfl
    (by decide) (by decide) ⟨{}, rfl, List.Pairwise.nil⟩
  have : (taintSets (fun _ => true) (fun _ => [(true, true)]) (taintSets (fun _ => false) (fun _ => [(true, true)]) (fun k => if k = "n" then some {} else none) [{ name := "s", machines := ["n"] }]).1
      [remark (taintSets (fun _ => false) (fun _ => [(true, true)]) (fun k => if k = "n" then some {} else none) [{ name := "s", machines := ["n"] }]).2.1 { name := "s", machines := ["n"] }]).1 "n" = some {} := by decide
  rw [this] at h1
  cases h1
  cases h2

/-- C65, false part: A machine of an old set that gets its node after the set was marked never has it tainted. -/
theorem C65_late_node_false : ¬ ∀ (att : String → List (Bool × Bool)) (ns : Nodes) (s : MSet) (name : String), s.marked = true → name ∈ s.machines →
    name ≠ "" → (∃ n, ns name = some n ∧ Valid n.taints) →
    ∃ n', (taintSets (fun _ => true) att ns [s]).1 name = some n' ∧ avoid ∈ n'.taints := by
  intro h
  obtain ⟨n', h1, h2⟩ := h (fun _ => [(true, true)]) (fun k => if k = "n" then some {} else none) { name := "s", machines := ["n"], marked := true } "n" rfl
    (by decide) (by decide) ⟨{}, rfl, List.Pairwise.nil⟩
  have : (taintSets (fun _ => true) (fun _ => [(true, true)]) (fun k => if k = "n" then some {} else none) [{ name := "s", machines := ["n"], marked := true }]).1 "n" = some {} := by decide
  rw [this] at h1
  cases h1
  cases h2

/-- C65, false part: One failing GET of a set spoils all later attempts, since these ask for the empty name; the sets behind it are
not tainted. -/
theorem C65_one_failed_read_false : ¬ ∀ (att : String → List (Bool × Bool)) (ns : Nodes) (ss : List MSet),
    (∀ n, (true, true) ∈ att n) → (taintSets (fun _ => true) att ns ss).2.2 = true := by
  intro h
  exact absurd (h (fun _ => [(false, false), (true, true)]) (fun _ => none) [{ name := "s" }] (fun _ => by decide)) (by decide)

theorem remove_taints (l : List Taint) : (remove l oldTaint).1 = others l := (C42_remove l oldTaint).1

theorem dropOld_same (n : Node) : SameButTaint n (dropOld n) := by
  refine ⟨rfl, ?_⟩
  show others (remove n.taints oldTaint).1 = _
  rw [remove_taints]
  unfold others
  rw [List.filter_filter]
  congr 1
  funext u
  simp

theorem dropOld_idem (n : Node) : dropOld (dropOld n) = dropOld n := by
  have h1 : (dropOld n).taints = others n.taints := remove_taints n.taints
  have h2 : (remove (dropOld n).taints oldTaint).1 = (dropOld n).taints := by
    rw [remove_taints, h1]
    unfold others
    rw [List.filter_filter]
    congr 1
    funext u
    simp
  show { dropOld n with taints := (remove (dropOld n).taints oldTaint).1 } = dropOld n
  rw [h2]

theorem untaintSet_spec (ok : Ok) (att : List (Bool × Bool)) (ns : Nodes) (s : MSet) (name : String) :
    Edited dropOld ns (untaintSet ok att ns s).1 name (s.marked = true ∧ name ∈ s.machines)
      (s.marked = true ∧ name ∈ s.machines ∧ name ≠ "" ∧ ok name = true) := by
  unfold untaintSet
  by_cases hm : s.marked = true
  · rw [if_neg (by simpa using hm)]
    obtain ⟨k, h1, h2, h3⟩ := editAll_spec dropOld ok name s.machines ns
    rw [← untaintMachines_eq] at h1
    refine ⟨k, ?_, fun h => ⟨hm, (h2 h).1⟩, fun h => h3 h.2⟩
    dsimp only
    split <;> exact h1
  · rw [if_pos (by simpa using hm)]
    exact Edited.refl _ _ _ _ _ (fun h => hm h.1)

/-- C65: A rollback to a marked set removes the taint from its nodes when the requests succeed; other taints and the annotations stay. -/
theorem C65_rollback_untaints (ok : Ok) (att : List (Bool × Bool)) (ns : Nodes) (s : MSet) (hm : s.marked = true) (hok : ∀ n, ok n = true)
    (name : String) (hn : name ∈ s.machines) (hne : name ≠ "") (n : Node) (hnode : ns name = some n) :
    ∃ n', (untaintSet ok att ns s).1 name = some n' ∧ (∀ u ∈ n'.taints, ¬ Same avoid u) ∧ SameButTaint n n' := by
  obtain ⟨k, h1, _, h3⟩ := untaintSet_spec ok att ns s name
  have hk := h3 ⟨hm, hn, hne, hok name⟩
  obtain ⟨j, rfl⟩ := Nat.exists_eq_succ_of_ne_zero (Nat.ne_of_gt hk)
  refine ⟨_, by rw [h1, hnode]; rfl, ?_, iter_same _ dropOld_same _ _⟩
  rw [iter_idem dropOld n (dropOld_idem n)]
  intro u hu
  have hu : u ∈ (remove n.taints oldTaint).1 := hu
  rw [remove_taints] at hu
  simpa using (List.mem_filter.1 hu).2

/-- C65, false part: A set whose template becomes the current one again because the user edits the template (not by a rollback) keeps
its mark and the taints of its nodes: the new set's nodes are avoided by the scheduler after the update. -/
theorem C65_reverted_set_keeps_taint_false : ¬ ∀ (ok : Ok) (att : String → List (Bool × Bool)) (ns : Nodes) (old : List MSet) (new : MSet) (name : String),
    (∀ n, ok n = true) → (∀ s, markSet (att s) = true) → name ∈ new.machines → (∀ s ∈ old, name ∉ s.machines) →
    ∀ n', (rolloutEnd true true ok (rolloutStart true ok att ns old new).1 (old ++ [new])).1 name = some n' → avoid ∉ n'.taints := by
  intro h
  have := h (fun _ => true) (fun _ => [(true, true)]) (fun k => if k = "n" then some { taints := [avoid] } else none)
    [{ name := "o", machines := ["x"] }] { name := "s", machines := ["n"], marked := true } "n" (fun _ => rfl) (fun _ => rfl) (by decide) (by decide)
    { taints := [avoid] } (by decide)
  exact this (List.mem_singleton.2 rfl)

/-- C65, false part: When removing the taint of a node fails, the mark of the set is removed all the same, so that no later rollback
tries again. -/
theorem C65_failed_untaint_not_retried_false : ¬ ∀ (ok : Ok) (att : List (Bool × Bool)) (ns : Nodes) (s : MSet), s.marked = true →
    (untaintSet ok att ns s).2.1 = false → ∀ name ∈ s.machines, ∀ n', (untaintSet ok att ns s).1 name = some n' → avoid ∉ n'.taints := by
  intro h
  exact h (fun _ => false) [(true, true)] (fun k => if k = "n" then some { taints := [avoid] } else none) { name := "s", machines := ["n"], marked := true } rfl (by decide)
    "n" (by decide) { taints := [avoid] } (by decide) (List.mem_singleton.2 rfl)

example : ((taintSets (fun _ => true) (fun _ => [(true, false), (true, true)]) (fun k => if k = "n" ∨ k = "m" then some { taints := [{ key := "x", effect := "NoSchedule" }] } else none)
    [{ name := "o", machines := ["", "n"] }, { name := "p", machines := ["m"], marked := true }]).1 "n") = some { taints := [{ key := "x", effect := "NoSchedule" }, avoid] } := by decide

theorem markSet_true : ∀ l : List (Bool × Bool), markSet l = true → (true, true) ∈ l
  | [], h => nomatch h
  | (get, update) :: rest, h => by
    unfold markSet at h
    cases get with
    | false => exact nomatch h
    | true =>
      cases update with
      | true => exact List.mem_cons_self
      | false => exact List.mem_cons_of_mem _ (markSet_true rest h)

/-- C65: A set counts as marked only if one of the requests that mark it was accepted; and a pass that is successful has marked all sets. -/
theorem C65_marked (ok : Ok) (att : String → List (Bool × Bool)) : ∀ (ss : List MSet) (ns : Nodes),
    (∀ k ∈ (taintSets ok att ns ss).2.1, (∃ s ∈ ss, s.marked = false ∧ s.name = k) ∧ (true, true) ∈ att k) ∧
    ((taintSets ok att ns ss).2.2 = true → ∀ s ∈ ss, s.marked = true ∨ (true, true) ∈ att s.name)
  | [], _ => ⟨fun _ h => (nomatch h), fun _ _ h => (nomatch h)⟩
  | s :: ss, ns => by
    unfold taintSets
    split
    · rename_i hm
      obtain ⟨h1, h2⟩ := C65_marked ok att ss ns
      refine ⟨fun k hk => ?_, fun h x hx => ?_⟩
      · obtain ⟨⟨x, hx, h⟩, h'⟩ := h1 k hk
        exact ⟨⟨x, List.mem_cons_of_mem _ hx, h⟩, h'⟩
      · rcases List.mem_cons.1 hx with rfl | hx
        · exact .inl hm
        · exact h2 h x hx
    · rename_i hm
      dsimp only
      split
      · rename_i hk
        obtain ⟨h1, h2⟩ := C65_marked ok att ss (taintMachines ok ns s.machines)
        refine ⟨fun k hk' => ?_, fun h x hx => ?_⟩
        · rcases List.mem_cons.1 hk' with rfl | hk'
          · exact ⟨⟨s, List.mem_cons_self, by simpa using hm, rfl⟩, markSet_true _ hk⟩
          · obtain ⟨⟨x, hx, h⟩, h'⟩ := h1 k hk'
            exact ⟨⟨x, List.mem_cons_of_mem _ hx, h⟩, h'⟩
        · rcases List.mem_cons.1 hx with rfl | hx
          · exact .inr (markSet_true _ hk)
          · exact h2 h x hx
      · exact ⟨fun _ h => (nomatch h), fun h => (nomatch h)⟩

/-- C65: A rollback counts the mark as removed only if the request that removes it was accepted. -/
theorem C65_unmarked (ok : Ok) (att : List (Bool × Bool)) (ns : Nodes) (s : MSet) (hm : s.marked = true) :
    ((untaintSet ok att ns s).2.1 = false → (true, true) ∈ att) ∧ (untaintSet ok att ns s).2.2 = !(untaintSet ok att ns s).2.1 := by
  unfold untaintSet
  rw [if_neg (by simp [hm])]
  dsimp only
  split
  · rename_i h
    refine ⟨fun _ => ?_, rfl⟩
    cases att with
    | nil => exact nomatch h
    | cons x rest =>
      obtain ⟨g, u⟩ := x
      unfold unmarkSet at h
      rw [Bool.and_eq_true] at h
      rw [h.1, h.2]; exact List.mem_cons_self
  · exact ⟨fun h => (nomatch h), rfl⟩

example : (taintSets (fun _ => true) (fun k => if k = "o" then [(true, true)] else []) (fun _ => none) [{ name := "o" }, { name := "p" }]).2 = (["o"], false) := by decide

/-! ### C66 -/

def addAnn (n : Node) : Node := { n with annotations := addAnnotations n.annotations }

theorem annotateMachines_eq (ok : Ok) : ∀ (ms : List String) (ns : Nodes), annotateMachines ok ns ms = editAll addAnn ok ns ms
  | [], _ => rfl
  | m :: ms, ns => by rw [annotateMachines, editAll, annotateMachines_eq ok ms]; rfl

theorem annotateSets_spec (ok : Ok) (name : String) : ∀ (ss : List MSet) (ns : Nodes),
    Edited addAnn ns (annotateSets ok ns ss) name (∃ s ∈ ss, name ∈ s.machines) (name ≠ "" ∧ ok name = true ∧ ∃ s ∈ ss, name ∈ s.machines)
  | [], ns => Edited.refl _ _ _ _ _ (fun ⟨_, _, s, hs, _⟩ => by cases hs)
  | s :: ss, ns => by
    rw [annotateSets, annotateMachines_eq]
    refine Edited.trans (editAll_spec addAnn ok name s.machines ns) (annotateSets_spec ok name ss _) ?_ ?_
    · rintro (h | ⟨t, ht, h⟩)
      · exact ⟨s, List.mem_cons_self, h.1⟩
      · exact ⟨t, List.mem_cons_of_mem _ ht, h⟩
    · rintro ⟨ha, hb, t, ht, h⟩
      rcases List.mem_cons.1 ht with rfl | ht
      · exact .inl ⟨h, ha, hb⟩
      · exact .inr ⟨ha, hb, t, ht, h⟩

theorem keys_ne : mcmKey ≠ sdKey := by decide

/-- one of the annotations added -/
def ensure (k : String) (m : SMap) : SMap := if List.lookup k m = some "true" then m else m.set k "true"

theorem addAnnotations_eq (m : SMap) : addAnnotations m = ensure mcmKey (ensure sdKey m) := rfl

theorem ensure_lookup (m : SMap) (k : String) :
    List.lookup k (ensure k m) = some "true" ∧ ∀ k', k' ≠ k → List.lookup k' (ensure k m) = List.lookup k' m := by
  unfold ensure
  split
  · exact ⟨by assumption, fun _ _ => rfl⟩
  · exact ⟨lookup_set_eq _ _ _, fun k hk => lookup_set_ne _ _ _ _ hk⟩

theorem addAnnotations_lookup (m : SMap) :
    List.lookup sdKey (addAnnotations m) = some "true" ∧ List.lookup mcmKey (addAnnotations m) = some "true" ∧
    ∀ k, k ≠ sdKey → k ≠ mcmKey → List.lookup k (addAnnotations m) = List.lookup k m := by
  obtain ⟨a, b⟩ := ensure_lookup m sdKey
  obtain ⟨c, d⟩ := ensure_lookup (ensure sdKey m) mcmKey
  rw [addAnnotations_eq]
  exact ⟨(d sdKey keys_ne.symm).trans a, c, fun k hk hk' => (d k hk').trans (b k hk)⟩

theorem addAnn_idem (n : Node) : addAnn (addAnn n) = addAnn n := by
  obtain ⟨a, b, _⟩ := addAnnotations_lookup n.annotations
  have : addAnnotations (addAnnotations n.annotations) = addAnnotations n.annotations := by
    have e1 : ensure sdKey (addAnnotations n.annotations) = addAnnotations n.annotations := if_pos a
    rw [addAnnotations_eq (addAnnotations n.annotations), e1]
    exact if_pos b
  show { n with annotations := addAnnotations (addAnnotations n.annotations) } = _
  rw [this]
  rfl

/-- protected from the autoscaler by this controller -/
def Protected (n : Node) : Prop :=
  List.lookup "cluster-autoscaler.kubernetes.io/scale-down-disabled" n.annotations = some "true" ∧
  List.lookup "cluster-autoscaler.kubernetes.io/scale-down-disabled-by-mcm" n.annotations = some "true"

/-- `n'` differs from `n` in the two annotations at most -/
def SameButAnnotations (n n' : Node) : Prop := n'.taints = n.taints ∧ ∀ k, k ≠ sdKey → k ≠ mcmKey → List.lookup k n'.annotations = List.lookup k n.annotations

theorem annotate_node (ok : Ok) (ns : Nodes) (ss : List MSet) (hok : ∀ n, ok n = true) (s : MSet) (hs : s ∈ ss) (name : String) (hn : name ∈ s.machines) (hne : name ≠ "")
    (n : Node) (hnode : ns name = some n) : ∃ n', annotateSets ok ns ss name = some n' ∧ Protected n' ∧ SameButAnnotations n n' := by
  obtain ⟨k, h1, _, h3⟩ := annotateSets_spec ok name ss ns
  have hk := h3 ⟨hne, hok name, s, hs, hn⟩
  obtain ⟨j, rfl⟩ := Nat.exists_eq_succ_of_ne_zero (Nat.ne_of_gt hk)
  refine ⟨_, by rw [h1, hnode]; rfl, ?_⟩
  rw [iter_idem addAnn n (addAnn_idem n)]
  obtain ⟨a, b, c⟩ := addAnnotations_lookup n.annotations
  exact ⟨⟨a, b⟩, rfl, c⟩

/-- some old set still has replicas, all of them in each of the counted states at least once -/
def Rolling (old : List MSet) : Prop := ∃ s ∈ old, s.replicas ≠ 0 ∧ s.available ≠ 0 ∧ s.fullyLabeled ≠ 0 ∧ s.ready ≠ 0 ∧ s.statusReplicas ≠ 0

/-- C66: While an old set still has working machines, every reconcile whose requests succeed leaves all nodes of the deployment
protected. The full statement has in place of `Rolling` that an old set has replicas; it is refuted below. -/
theorem C66_protected_during_rollout_partial (ok : Ok) (att : String → List (Bool × Bool)) (ns : Nodes) (old : List MSet) (new : MSet)
    (hok : ∀ n, ok n = true) (hr : Rolling old) (s : MSet) (hs : s ∈ old ++ [new]) (name : String) (hn : name ∈ s.machines) (hne : name ≠ "")
    (hnode : ns name ≠ none) : ∃ n', (rolloutStart true ok att ns old new).1 name = some n' ∧ Protected n' := by
  have hz : scaledToZero old = false := by
    obtain ⟨t, ht, h⟩ := hr
    unfold scaledToZero
    rw [List.all_eq_false]
    exact ⟨t, ht, by simpa using h⟩
  have hne' : old ≠ [] := by
    obtain ⟨t, ht, _⟩ := hr
    exact fun e => by rw [e] at ht; cases ht
  unfold rolloutStart
  dsimp only
  rw [if_pos ⟨rfl, hne', by simp [hz]⟩]
  cases hm : (taintSets ok att ns old).1 name with
  | none => exact absurd ((C65_nothing_else ok att ns old name).2.1.1 hm) hnode
  | some n =>
    obtain ⟨n', h1, h2, _⟩ := annotate_node ok _ (old ++ [new]) hok s hs name hn hne n hm
    exact ⟨n', h1, h2⟩

theorem lookup_removeAnnotations (m : SMap) (k : String) :
    List.lookup k (removeAnnotations m) = if k = sdKey ∨ k = mcmKey then none else List.lookup k m := by
  unfold removeAnnotations
  induction m with
  | nil => simp
  | cons e l ih =>
    obtain ⟨a, b⟩ := e
    rw [List.filter_cons, List.lookup_cons]
    by_cases ha : a = sdKey ∨ a = mcmKey
    · rw [if_neg (fun h => (of_decide_eq_true (p := ¬ (a = sdKey ∨ a = mcmKey)) h) ha), ih]
      by_cases hk : k = sdKey ∨ k = mcmKey
      · rw [if_pos hk, if_pos hk]
      · have : (k == a) = false := by
          have : k ≠ a := fun e => hk (e ▸ ha)
          simpa using this
        rw [if_neg hk, if_neg hk, this]
    · rw [if_pos (decide_eq_true ha), List.lookup_cons, ih]
      by_cases hk : k = sdKey ∨ k = mcmKey
      · have : (k == a) = false := by
          have : k ≠ a := fun e => ha (e ▸ hk)
          simpa using this
        rw [if_pos hk, if_pos hk, this]
      · rw [if_neg hk, if_neg hk]

/-- what ending a rollout may do to a node -/
def Released (n n' : Node) : Prop :=
  (List.lookup mcmKey n.annotations = none → n' = n) ∧ SameButAnnotations n n'

theorem Released.refl (n : Node) : Released n n := ⟨fun _ => rfl, rfl, fun _ _ _ => rfl⟩

theorem Released.trans {a b c : Node} (h1 : Released a b) (h2 : Released b c) : Released a c := by
  refine ⟨fun h => ?_, h2.2.1.trans h1.2.1, fun k hk hk' => (h2.2.2 k hk hk').trans (h1.2.2 k hk hk')⟩
  have := h1.1 h
  subst this
  exact h2.1 h

/-- the nodes after: as before or released; none appears or disappears -/
def NodesReleased (ns ns' : Nodes) : Prop := ∀ name, (ns name = none ∧ ns' name = none) ∨ ∃ n n', ns name = some n ∧ ns' name = some n' ∧ Released n n' ∧
  (List.lookup mcmKey n.annotations = none → List.lookup mcmKey n'.annotations = none)

theorem NodesReleased.refl (ns : Nodes) : NodesReleased ns ns := fun name => by
  cases h : ns name with
  | none => exact .inl ⟨rfl, rfl⟩
  | some n => exact .inr ⟨n, n, rfl, rfl, Released.refl n, fun h => h⟩

theorem NodesReleased.trans {a b c : Nodes} (h1 : NodesReleased a b) (h2 : NodesReleased b c) : NodesReleased a c := fun name => by
  rcases h1 name with ⟨ha, hb⟩ | ⟨n, n', ha, hb, hr, hm⟩
  · rcases h2 name with ⟨_, hc⟩ | ⟨x, _, hb', _⟩
    · exact .inl ⟨ha, hc⟩
    · rw [hb] at hb'; cases hb'
  · rcases h2 name with ⟨hb', _⟩ | ⟨x, y, hb', hc, hr', hm'⟩
    · rw [hb] at hb'; cases hb'
    · rw [hb] at hb'
      cases hb'
      exact .inr ⟨n, y, ha, hc, hr.trans hr', fun h => hm' (hm h)⟩

theorem unannotateMachines_spec (ok : Ok) : ∀ (ms : List String) (ns : Nodes),
    NodesReleased ns (unannotateMachines ok ns ms).1 ∧
    ((unannotateMachines ok ns ms).2 = true → ∀ m ∈ ms, m ≠ "" → ∀ n, (unannotateMachines ok ns ms).1 m = some n → List.lookup mcmKey n.annotations = none) ∧
    ((∀ n, ok n = true) → (unannotateMachines ok ns ms).2 = true)
  | [], ns => ⟨NodesReleased.refl ns, fun _ _ hm => (nomatch hm), fun _ => rfl⟩
  | m :: ms, ns => by
    rw [unannotateMachines]
    by_cases hm : m = ""
    · rw [if_pos hm]
      obtain ⟨h1, h2, h3⟩ := unannotateMachines_spec ok ms ns
      refine ⟨h1, fun h k hk hne => ?_, h3⟩
      rcases List.mem_cons.1 hk with rfl | hk
      · exact absurd hm hne
      · exact h2 h k hk hne
    · rw [if_neg hm]
      cases hn : ns m with
      | none =>
        dsimp only
        obtain ⟨h1, h2, h3⟩ := unannotateMachines_spec ok ms ns
        refine ⟨h1, fun h k hk hne n hkn => ?_, h3⟩
        rcases List.mem_cons.1 hk with rfl | hk
        · rcases h1 k with ⟨_, h'⟩ | ⟨x, y, hx, _⟩
          · rw [h'] at hkn; cases hkn
          · rw [hn] at hx; cases hx
        · exact h2 h k hk hne n hkn
      | some n =>
        dsimp only
        by_cases hok : ok m = true
        · rw [if_neg (by simpa using hok)]
          by_cases ha : n.annotations.has mcmKey = true
          · rw [if_pos ha]
            obtain ⟨h1, h2, h3⟩ := unannotateMachines_spec ok ms (ns.put m { n with annotations := removeAnnotations n.annotations })
            have hput : NodesReleased ns (ns.put m { n with annotations := removeAnnotations n.annotations }) := by
              intro k
              unfold Nodes.put
              by_cases hk : k = m
              · subst hk
                refine .inr ⟨n, { n with annotations := removeAnnotations n.annotations }, hn, if_pos rfl, ⟨fun h => ?_, rfl, fun k hk hk' => ?_⟩, fun _ => ?_⟩
                · unfold SMap.has at ha
                  rw [h] at ha
                  cases ha
                · show List.lookup k (removeAnnotations n.annotations) = _
                  rw [lookup_removeAnnotations, if_neg (by simp [hk, hk'])]
                · show List.lookup mcmKey (removeAnnotations n.annotations) = _
                  rw [lookup_removeAnnotations, if_pos (.inr rfl)]
              · rw [if_neg hk]
                exact NodesReleased.refl ns k
            refine ⟨hput.trans h1, fun h k hk hne x hkx => ?_, h3⟩
            rcases List.mem_cons.1 hk with rfl | hk
            · rcases h1 k with ⟨h', _⟩ | ⟨y, z, hy, hz, _, hmm⟩
              · unfold Nodes.put at h'; rw [if_pos rfl] at h'; cases h'
              · rw [hz] at hkx
                cases hkx
                unfold Nodes.put at hy
                rw [if_pos rfl] at hy
                cases hy
                refine hmm ?_
                show List.lookup mcmKey (removeAnnotations n.annotations) = _
                rw [lookup_removeAnnotations, if_pos (.inr rfl)]
            · exact h2 h k hk hne x hkx
          · rw [if_neg ha]
            obtain ⟨h1, h2, h3⟩ := unannotateMachines_spec ok ms ns
            refine ⟨h1, fun h k hk hne x hkx => ?_, h3⟩
            rcases List.mem_cons.1 hk with rfl | hk
            · rcases h1 k with ⟨h', _⟩ | ⟨y, z, hy, hz, _, hmm⟩
              · rw [hn] at h'; cases h'
              · rw [hz] at hkx
                cases hkx
                rw [hn] at hy
                cases hy
                refine hmm ?_
                unfold SMap.has at ha
                cases hl : List.lookup mcmKey n.annotations with
                | none => rfl
                | some _ => rw [hl] at ha; exact absurd rfl ha
            · exact h2 h k hk hne x hkx
        · rw [if_pos (by simpa using hok)]
          exact ⟨NodesReleased.refl ns, fun h => (nomatch h), fun h => absurd (h m) hok⟩

theorem unannotateSets_spec (ok : Ok) : ∀ (ss : List MSet) (ns : Nodes),
    NodesReleased ns (unannotateSets ok ns ss).1 ∧
    ((unannotateSets ok ns ss).2 = true → ∀ s ∈ ss, ∀ m ∈ s.machines, m ≠ "" → ∀ n, (unannotateSets ok ns ss).1 m = some n → List.lookup mcmKey n.annotations = none) ∧
    ((∀ n, ok n = true) → (unannotateSets ok ns ss).2 = true)
  | [], ns => ⟨NodesReleased.refl ns, fun _ _ hm => (nomatch hm), fun _ => rfl⟩
  | s :: ss, ns => by
    rw [unannotateSets]
    obtain ⟨h1, h2, h3⟩ := unannotateMachines_spec ok s.machines ns
    by_cases hc : (unannotateMachines ok ns s.machines).2 = true
    · rw [if_pos hc]
      obtain ⟨g1, g2, g3⟩ := unannotateSets_spec ok ss (unannotateMachines ok ns s.machines).1
      refine ⟨h1.trans g1, fun h t ht m hm hne n hn => ?_, g3⟩
      rcases List.mem_cons.1 ht with rfl | ht
      · rcases g1 m with ⟨_, h'⟩ | ⟨x, y, hx, hy, _, hmm⟩
        · rw [h'] at hn; cases hn
        · rw [hy] at hn
          cases hn
          exact hmm (h2 hc m hm hne x hx)
      · exact g2 h t ht m hm hne n hn
    · rw [if_neg hc]
      exact ⟨h1, fun h => absurd h hc, fun h => absurd (h3 h) hc⟩

/-- C66: When a completed rollout is ended without an error, no node of the deployment carries the mark of this controller; and it
ends without an error when the requests succeed. -/
theorem C66_released_after_rollout (ok : Ok) (ns : Nodes) (all : List MSet) :
    ((rolloutEnd true true ok ns all).2 = true → ∀ s ∈ all, ∀ m ∈ s.machines, m ≠ "" → ∀ n, (rolloutEnd true true ok ns all).1 m = some n →
      ¬ Protected n) ∧ ((∀ n, ok n = true) → (rolloutEnd true true ok ns all).2 = true) := by
  obtain ⟨_, h2, h3⟩ := unannotateSets_spec ok all ns
  have he : rolloutEnd true true ok ns all = unannotateSets ok ns all := if_pos ⟨rfl, rfl⟩
  rw [he]
  refine ⟨fun h s hs m hm hne n hn hp => ?_, h3⟩
  have := h2 h s hs m hm hne n hn
  have hp2 : List.lookup mcmKey n.annotations = some "true" := hp.2
  rw [this] at hp2
  cases hp2

/-- C66: Whatever fails: a node without the mark of this controller is not changed by ending the rollout (so an annotation of the user
alone is kept), and of no node anything but the two annotations changes. -/
theorem C66_unmarked_nodes_kept (flag complete : Bool) (ok : Ok) (ns : Nodes) (all : List MSet) (name : String) :
    (ns name = none ↔ (rolloutEnd flag complete ok ns all).1 name = none) ∧
    ∀ n n', ns name = some n → (rolloutEnd flag complete ok ns all).1 name = some n' →
      (List.lookup "cluster-autoscaler.kubernetes.io/scale-down-disabled-by-mcm" n.annotations = none → n' = n) ∧ n'.taints = n.taints ∧
      ∀ k, k ≠ "cluster-autoscaler.kubernetes.io/scale-down-disabled" → k ≠ "cluster-autoscaler.kubernetes.io/scale-down-disabled-by-mcm" → List.lookup k n'.annotations = List.lookup k n.annotations := by
  have h1 : NodesReleased ns (rolloutEnd flag complete ok ns all).1 := by
    unfold rolloutEnd
    split
    · exact (unannotateSets_spec ok all ns).1
    · exact NodesReleased.refl ns
  rcases h1 name with ⟨ha, hb⟩ | ⟨n, n', ha, hb, hr, _⟩
  · exact ⟨by simp [ha, hb], fun n n' hn => by rw [ha] at hn; cases hn⟩
  · refine ⟨by simp [ha, hb], fun x y hx hy => ?_⟩
    rw [ha] at hx
    rw [hb] at hy
    cases hx
    cases hy
    exact hr

/-- C66, false part: The annotation a user put on a node is lost: the rollout adds its mark to the node all the same, and then removes
both ("We do this to avoid accidentally deleting the user provided annotations", deployment_rolling.go:51). -/
theorem C66_user_annotation_lost_false : ¬ ∀ (att : String → List (Bool × Bool)) (ns : Nodes) (old : List MSet) (new : MSet) (name : String) (n n' : Node),
    ns name = some n → List.lookup mcmKey n.annotations = none → List.lookup sdKey n.annotations = some "true" →
    (rolloutEnd true true (fun _ => true) (rolloutStart true (fun _ => true) att ns old new).1 (old ++ [new])).1 name = some n' →
    List.lookup sdKey n'.annotations = some "true" := by
  intro h
  have := h (fun _ => [(true, true)]) (fun k => if k = "n" then some { annotations := [(sdKey, "true")] } else none)
    [{ name := "o", machines := ["x"], replicas := 1, available := 1, fullyLabeled := 1, ready := 1, statusReplicas := 1 }] { name := "s", machines := ["n"] } "n"
    { annotations := [(sdKey, "true")] } {} (by decide) (by decide) (by decide) (by decide)
  revert this
  decide

/-- C66, false part: An old set with replicas none of which is ready counts as scaled to zero, so that nodes are not protected though
the rollout goes on. -/
theorem C66_unready_old_set_false : ¬ ∀ (att : String → List (Bool × Bool)) (ns : Nodes) (old : List MSet) (new : MSet) (name : String),
    (∃ s ∈ old, s.replicas > 0 ∧ s.statusReplicas > 0) → name ∈ new.machines → name ≠ "" → ns name ≠ none →
    ∃ n', (rolloutStart true (fun _ => true) att ns old new).1 name = some n' ∧ Protected n' := by
  intro h
  obtain ⟨n', h1, h2⟩ := h (fun _ => [(true, true)]) (fun k => if k = "n" then some {} else none)
    [{ name := "o", machines := ["x"], replicas := 3, statusReplicas := 3 }] { name := "s", machines := ["n"] } "n" ⟨_, List.mem_singleton.2 rfl, by decide, by decide⟩
    (by decide) (by decide) (by decide)
  have : (rolloutStart true (fun _ => true) (fun _ => [(true, true)]) (fun k => if k = "n" then some {} else none)
    [{ name := "o", machines := ["x"], replicas := 3, statusReplicas := 3 }] { name := "s", machines := ["n"] }).1 "n" = some {} := by decide
  rw [this] at h1
  cases h1
  revert h2
  unfold Protected
  decide

example : (rolloutStart true (fun _ => true) (fun _ => [(true, true)]) (fun k => if k = "n" then some {} else none)
    [{ name := "o", machines := ["n"], replicas := 3, statusReplicas := 3, ready := 1, available := 1, fullyLabeled := 3 }] { name := "s", machines := [""] }).1 "n" =
    some { taints := [oldTaint], annotations := [(mcmKey, "true"), (sdKey, "true")] } := by decide

-- a set without the mark is left alone, and does not get the mark, whatever the answers to calls would be
example (ok : Ok) (att : List (Bool × Bool)) (ns : Nodes) : untaintSet ok att ns { name := "s", machines := ["n"], marked := false } = (ns, false, true) := by
  unfold untaintSet
  rw [if_pos (by decide)]

end MCM.RolloutNodes
