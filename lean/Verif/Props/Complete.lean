import Verif.Model.Complete
import Verif.Props.Ceiling
import Verif.Props.RecreateLive
/-!
C142: a rollout that is reported as complete is complete.
-/
namespace MCM.World
open MCM MCM.Dispatch MCM.Rolling MCM.Template

/-! ### Specification -/

/-- `f` is the machine set of the current template: the oldest one with that template -/
def IsCurrent (d : FDep) (l : List FSet) (f : FSet) : Prop :=
  ∃ l1 l2, l = l1 ++ f :: l2 ∧ equalIgnoreHash f.tmpl d.template = true ∧ ∀ g ∈ l1, equalIgnoreHash g.tmpl d.template = false

/-- The rollout is complete: there are as many machines as wanted, every one serves, and every one belongs to the set of the current template. -/
structure Complete (d : FDep) (w : World) : Prop where
  number : machinesAll w = d.spec.replicas
  serve : ∀ f ∈ w.sets, ∀ m ∈ (w.fleet f.set.name).ms, serves m = true
  current : ∀ f ∈ w.sets, (w.fleet f.set.name).ms ≠ [] → IsCurrent d w.sets f

/-! ### Proofs -/

theorem isCurrent_iff {d : FDep} {l : List FSet} (f : FSet) : IsCurrent d l f ↔ ofTemplate d l = some f := by
  unfold IsCurrent ofTemplate
  rw [List.find?_eq_some_iff_append]
  constructor
  · rintro ⟨l1, l2, h, h1, h2⟩
    exact ⟨h1, l1, l2, h, fun a ha => by simp [h2 a ha]⟩
  · rintro ⟨h1, l1, l2, h, h2⟩
    exact ⟨l1, l2, h, h1, fun a ha => by simpa using h2 a ha⟩

theorem inOrder_perm {d : FDep} {l : List FSet} (hu : Unique l) : (inOrder d l).Perm l := by
  unfold inOrder
  split
  · rename_i n hn
    have hm : n ∈ l := List.mem_of_find?_eq_some hn
    clear hn
    unfold others
    induction l with
    | nil => simp at hm
    | cons a l ih =>
      have hu' : Unique l := (List.nodup_cons.1 hu).2
      have ha : ∀ f ∈ l, f.set.name ≠ a.set.name := fun f hf he => (List.nodup_cons.1 hu).1 (List.mem_map.2 ⟨f, hf, he⟩)
      rcases List.mem_cons.1 hm with rfl | hm
      · have : l.filter (fun f => !(f.set.name == n.set.name)) = l := List.filter_eq_self.2 fun f hf => by simp [ha f hf]
        rw [List.filter_cons_of_neg (by simp), this]
        exact List.perm_append_comm
      · rw [List.filter_cons_of_pos (by simpa using fun h => ha n hm h.symm)]
        exact (ih hu' hm).cons a
  · exact .refl _

theorem sum_inOrder {d : FDep} {l : List FSet} (hu : Unique l) (g : FSet → Int) : ((inOrder d l).map g).sum = (l.map g).sum :=
  sum_perm ((inOrder_perm hu).map g)

theorem said_iff {d : FDep} {l : List FSet} (hu : Unique l) (now gen : Int) : said now gen d l = true ↔
    ((ofTemplate d l).toList.map (·.status)).sum = d.spec.replicas ∧ (l.map (·.status)).sum = d.spec.replicas ∧ (l.map (·.set.avail)).sum = d.spec.replicas := by
  unfold said Status.complete summary Status.calcDep
  dsimp only
  simp only [List.map_map]
  rw [show ((fun s : Status.DSet => s.st.replicas) ∘ shown) = (fun f : FSet => f.status) from rfl, show ((fun s : Status.DSet => s.st.available) ∘ shown) = (fun f : FSet => f.set.avail) from rfl,
    sum_inOrder hu, sum_inOrder hu]
  have : ((ofTemplate d l).map shown).toList.map (fun s => s.st.replicas) = (ofTemplate d l).toList.map (·.status) := by cases ofTemplate d l <;> rfl
  rw [this]
  simp [and_assoc]

/-- a sum of numbers not below those of another sum, but the same sum: the numbers are the same -/
theorem sum_same {α : Type} (l : List α) (a b : α → Int) (h : ∀ x ∈ l, a x ≤ b x) (he : (l.map a).sum = (l.map b).sum) : ∀ x ∈ l, a x = b x := by
  have mono : ∀ l : List α, (∀ x ∈ l, a x ≤ b x) → (l.map a).sum ≤ (l.map b).sum := by
    intro l h
    induction l with
    | nil => simp
    | cons x l ih =>
      have := ih fun y hy => h y (.tail _ hy)
      have := h x (.head _)
      simp only [List.map_cons, List.sum_cons]
      omega
  induction l with
  | nil => simp
  | cons x l ih =>
    have h1 := mono l fun y hy => h y (.tail _ hy)
    have h2 := h x (.head _)
    simp only [List.map_cons, List.sum_cons] at he
    intro y hy
    rcases List.mem_cons.1 hy with rfl | hy
    · omega
    · exact ih (fun y hy => h y (.tail _ hy)) (by omega) y hy

theorem sum_cur {d : FDep} {l : List FSet} (hu : Unique l) (g : FSet → Int) :
    (l.map fun f => if ofTemplate d l = some f then g f else 0).sum = ((ofTemplate d l).toList.map g).sum := by
  cases hc : ofTemplate d l with
  | none => simp
  | some n =>
    have hm : n ∈ l := List.mem_of_find?_eq_some hc
    clear hc
    induction l with
    | nil => simp at hm
    | cons a l ih =>
      have hu' : Unique l := (List.nodup_cons.1 hu).2
      have ha : ∀ f ∈ l, f.set.name ≠ a.set.name := fun f hf he => (List.nodup_cons.1 hu).1 (List.mem_map.2 ⟨f, hf, he⟩)
      simp only [List.map_cons, List.sum_cons, Option.some.injEq]
      rcases List.mem_cons.1 hm with rfl | hm
      · have : l.map (fun f => if n = f then g f else 0) = l.map fun _ => 0 := List.map_congr_left fun f hf => if_neg fun h => ha f hf (by rw [h])
        rw [if_pos rfl, this]
        simp
      · have := ih hu' hm
        simp only [Option.some.injEq] at this
        rw [if_neg (fun h => ha n hm (by rw [h])), this]
        simp

/-! ### Theorems -/

/-- **C142**: When the sets have reported all their machines, a rollout is taken for complete exactly if it is: as many machines as wanted, all of the current template, and
all of them serving. The full statement is without the condition that the reports are up to date (`hx`); it is false, `C142_unseen_false`. -/
theorem C142_complete_iff_partial (now gen : Int) (d : FDep) (w : World) (hu : Unique w.sets) (hx : Exact w w.sets) : said now gen d w.sets = true ↔ Complete d w := by
  have e1 : w.sets.map (·.status) = w.sets.map fun f => ((w.fleet f.set.name).ms.length : Int) := List.map_congr_left fun f hf => (hx f hf).1
  have e2 : w.sets.map (·.set.avail) = w.sets.map fun f => (serving (w.fleet f.set.name) : Int) := List.map_congr_left fun f hf => (hx f hf).2
  have hle : ∀ f ∈ w.sets, (serving (w.fleet f.set.name) : Int) ≤ ((w.fleet f.set.name).ms.length : Int) := fun f _ => by
    have : serving (w.fleet f.set.name) ≤ (w.fleet f.set.name).ms.length := List.countP_le_length
    omega
  have hcle : ∀ f ∈ w.sets, (if ofTemplate d w.sets = some f then f.status else 0) ≤ ((w.fleet f.set.name).ms.length : Int) := fun f hf => by
    have := (hx f hf).1
    unfold allOf at this
    split <;> omega
  rw [said_iff hu, e1, e2, ← sum_cur hu]
  constructor
  · rintro ⟨h1, h2, h3⟩
    have s1 := sum_same w.sets _ _ hle (h3.trans h2.symm)
    have s2 := sum_same w.sets _ _ hcle (h1.trans h2.symm)
    refine ⟨h2, fun f hf m hm => ?_, fun f hf hne => (isCurrent_iff f).2 ?_⟩
    · have : (w.fleet f.set.name).ms.countP serves = (w.fleet f.set.name).ms.length := by have := s1 f hf; unfold serving at this; omega
      exact List.countP_eq_length.1 this m hm
    · have := s2 f hf
      by_contra hc
      rw [if_neg hc] at this
      exact hne (List.length_eq_zero_iff.1 (by omega))
  · rintro ⟨h1, h2, h3⟩
    have a1 : w.sets.map (fun f => (serving (w.fleet f.set.name) : Int)) = w.sets.map fun f => ((w.fleet f.set.name).ms.length : Int) := List.map_congr_left fun f hf => by
      have : (w.fleet f.set.name).ms.countP serves = (w.fleet f.set.name).ms.length := List.countP_eq_length.2 (h2 f hf)
      unfold serving
      omega
    have a2 : w.sets.map (fun f => if ofTemplate d w.sets = some f then f.status else 0) = w.sets.map fun f => ((w.fleet f.set.name).ms.length : Int) := List.map_congr_left fun f hf => by
      split
      · exact (hx f hf).1
      · rename_i hc
        have : (w.fleet f.set.name).ms = [] := by
          by_contra hne
          exact hc ((isCurrent_iff f).1 (h3 f hf hne))
        simp [this]
    rw [a1, a2]
    exact ⟨h1, h1, h1⟩

/-- a deployment whose current template is the one of the five machines at the beginning, or is made so again -/
def backDep : FDep := { lostDep with template := { body := "v1" } }
/-- the rollout of another template has begun: one machine of it is there, which its set has not reported yet -/
def begun : World := fills more2 "n" 1

/-- **C142** (reports lag behind): a rollout begins, and the set of the new template makes its machine; before that is reported the template is changed back. Everything that the
deployment controller ever saw was true when it saw it. The rollout is taken for complete, although there are six machines where five are wanted, one of them from another
template, whose set is to have it. -/
theorem C142_unseen_false : ∃ w', Fair lostDep fiveStart ∧ Runs Exact lostDep fiveStart w' ∧ (∀ now gen, said now gen backDep w'.sets = true) ∧ machinesAll w' = 6 ∧
    backDep.spec.replicas = 5 ∧ ¬ Complete backDep w' ∧
    ∃ f ∈ w'.sets, equalIgnoreHash f.tmpl backDep.template = false ∧ f.set.spec = 1 ∧ (w'.fleet f.set.name).ms.length = 1 := by
  have c0 := five_calm.ready
  have t1 : Run Exact lostDep fiveStart more1 := rolls_run c0 (by decide +kernel) (by unfold Exact; decide +kernel)
  have t2 : Run Exact lostDep more1 more2 := rolls_run (t1.ready lost_rolls c0) (by decide +kernel) (by unfold Exact; decide +kernel)
  have t3 : Run Exact lostDep more2 begun := fills_run "n" 1 (by decide) (by decide +kernel) rfl
  have hall : machinesAll begun = 6 := by decide +kernel
  refine ⟨begun, ⟨c0, five_calm.settled, by decide +kernel, by decide +kernel⟩, (((Runs.refl fiveStart).tail t1).tail t2).tail t3, fun now gen => ?_, hall, rfl, fun h => ?_, by decide +kernel⟩
  · refine (said_iff ?_ now gen).2 (by decide +kernel)
    unfold Dispatch.Unique
    decide +kernel
  · have := h.number
    rw [hall] at this
    cases this

/-- the five machines at the beginning, all reported: complete for their template, and not for another one -/
example : said 0 1 backDep fiveStart.sets = true ∧ Complete backDep fiveStart ∧ said 0 1 lostDep fiveStart.sets = false := by
  have hu : Unique fiveStart.sets := five_calm.ready.sound.unique
  have h : said 0 1 backDep fiveStart.sets = true := by decide +kernel
  exact ⟨h, (C142_complete_iff_partial 0 1 backDep fiveStart hu (by unfold Exact; decide +kernel)).1 h, by decide +kernel⟩

/-! ### The end is reported -/

theorem status_end {f : FSet} {s : Fleet.Fleet} (h0 : 0 ≤ f.set.spec) (hq : f.deleting = false ∨ f.set.spec = 0) (h : Fleet.Converged (demand f) s) :
    (s.ms.length : Int) = f.set.spec ∧ (serving s : Int) = f.set.spec ∧ (statusOf f s).replicas = f.set.spec ∧ (statusOf f s).available = f.set.spec := by
  obtain ⟨h1, h2, _, _⟩ := h.desired
  have hl : (s.ms.length : Int) = f.set.spec := by
    rcases hq with hq | hq
    · rw [h1, Fleet.goal_of hq]; unfold demand; dsimp only; omega
    · have : Fleet.goal (demand f) = 0 := by unfold Fleet.goal demand; dsimp only; rw [hq]; split <;> rfl
      rw [h1, this, hq]; rfl
  have hv : s.ms.countP serves = s.ms.length := List.countP_eq_length.2 fun m hm => by
    obtain ⟨vm, v, x, rfl, hp, _⟩ := h2 m hm
    unfold serves
    dsimp only
    rw [hp]; rfl
  refine ⟨hl, by unfold serving; omega, ?_⟩
  unfold statusOf Status.calcSet
  dsimp only
  rw [List.filter_eq_self.2, List.length_map]
  · exact ⟨hl, hl⟩
  · intro m hm
    obtain ⟨a, ha, rfl⟩ := List.mem_map.1 hm
    obtain ⟨vm, v, x, rfl, hp, _⟩ := h2 a ha
    unfold Status.isAvailable counted Fleet.view
    dsimp only
    rw [hp]; rfl

theorem end_idle {d : FDep} {w : World} (hu : Dispatch.Unique w.sets) (hfr : Fresh d w.sets) (ht : Target d w.sets) {f : FSet} (hf : f ∈ w.sets) : f.deleting = false ∨ f.set.spec = 0 := by
  obtain ⟨c, hc, _, hz⟩ := ht
  by_cases hn : f.set.name = c.set.name
  · exact .inl (by rw [unique_eq w.sets hu f c hf (cur_mem hc) hn]; exact hfr c hc)
  · exact .inr (hz f hf hn)

/-- at the end a set keeps its size -/
theorem end_spec {d : FDep} {I : World → Prop} {m : List FSet → Nat} (D : Drives d I m) {w w' : World} {l : Lab} (hw : I w) (ht : Target d w.sets) (h : Step d w l w')
    (hg : ∀ n, l ≠ .gone n) {f' : FSet} (hf' : f' ∈ w'.sets) : ∃ f ∈ w.sets, f'.set.name = f.set.name ∧ f'.set.spec = f.set.spec := by
  have ht' := D.keep hw ht h
  obtain ⟨c, hc, hs, hz⟩ := ht
  obtain ⟨c', hc', hs', hz'⟩ := ht'
  obtain ⟨x, hx, hxn⟩ := step_cur D.plain (D.unique hw) h hg hc
  rw [hc'] at hx; cases hx
  obtain ⟨f, hfm, hn, _⟩ := step_back D.plain (D.unique hw) h hg hc f' hf'
  refine ⟨f, hfm, hn, ?_⟩
  by_cases hcn : f.set.name = c.set.name
  · rw [unique_eq w.sets (D.unique hw) f c hfm (cur_mem hc) hcn, hs]
    rw [unique_eq w'.sets (D.unique (D.step hw h).1) f' c' hf' (cur_mem hc') (by rw [hn, hcn, hxn]), hs']
  · rw [hz f hfm hcn, hz' f' hf' (by rw [hn, hxn]; exact hcn)]

theorem end_step_right {d : FDep} {I : World → Prop} {m : List FSet → Nat} (D : Drives d I m) {w w' : World} {l : Lab} (hw : I w) (ht : Target d w.sets) (hf : Filled w)
    (h : Step d w l w') {n : String} (hr : Right n w ∨ l = .status n ∨ l = .gone n) : Right n w' := by
  have deploy : ∀ (e : Dispatch.Env) (seen : List FSet) (b : Bool), Step d w (.deploy b) (w.deploy d e seen) → Right n w → Right n (w.deploy d e seen) := by
    intro e seen b hst hr f hf hn
    obtain ⟨g, hg, e1, e2⟩ := end_spec D hw ht hst (fun _ h => by cases h) hf
    obtain ⟨k1, k2⟩ := restore_status (D.unique hw) hf hg e1
    have := hr g hg (by rw [← e1, hn])
    rw [k1, k2, e2]; exact this
  cases h with
  | machines f l s' hfm hst =>
    rcases hr with hr | hr | hr
    · exact hr
    · cases hr
    · cases hr
  | status f hfm =>
    intro x hx hn
    unfold World.report at hx
    obtain ⟨a, ha, rfl⟩ := List.mem_map.1 hx
    by_cases hc : a.set.name = f.set.name
    · rw [if_pos hc]
      have hcv := hf a ha
      rw [hc] at hcv
      exact (status_end (D.nonneg hw a ha) (end_idle (D.unique hw) (D.fresh hw) ht ha) hcv).2.2
    · rw [if_neg hc] at hn ⊢
      rcases hr with hr | hr | hr
      · exact hr a ha hn
      · cases hr; exact absurd hn hc
      · cases hr
  | gone f hfm h1 h2 =>
    intro x hx hn
    obtain ⟨hx, hne⟩ := mem_others.1 hx
    rcases hr with hr | hr | hr
    · exact hr x hx hn
    · cases hr
    · cases hr; exact absurd hn hne
  | poor e seen h1 h2 =>
    rcases hr with hr | hr | hr
    · exact deploy e seen false (.poor e seen h1 h2) hr
    · cases hr
    · cases hr
  | good e h1 h2 h3 h4 h5 =>
    rcases hr with hr | hr | hr
    · exact deploy e w.sets true (.good e h1 h2 h3 h4 h5) hr
    · cases hr
    · cases hr

theorem end_steps_right {d : FDep} {I : World → Prop} {m : List FSet → Nat} (D : Drives d I m) {w w' : World} {ls : List Lab} (hw : I w) (ht : Target d w.sets) (hf : Filled w)
    (h : Steps d w ls w') {n : String} (hr : Right n w ∨ .status n ∈ ls ∨ .gone n ∈ ls) : Right n w' := by
  induction h with
  | nil _ => rcases hr with hr | hr | hr; exact hr; cases hr; cases hr
  | @cons w w1 w2 l ls h1 h2 ih =>
    refine ih (D.step hw h1).1 (D.keep hw ht h1) (filled_target D hw ht hf h1) ?_
    rcases hr with hr | hr | hr
    · exact .inl (end_step_right D hw ht hf h1 (.inl hr))
    · rcases List.mem_cons.1 hr with hr | hr
      · exact .inl (end_step_right D hw ht hf h1 (.inr (.inl hr.symm)))
      · exact .inr (.inl hr)
    · rcases List.mem_cons.1 hr with hr | hr
      · exact .inl (end_step_right D hw ht hf h1 (.inr (.inr hr.symm)))
      · exact .inr (.inr hr)

theorem end_epoch_right {d : FDep} {I : World → Prop} {m : List FSet → Nat} (D : Drives d I m) {w w' : World} (hw : I w) (ht : Target d w.sets) (hf : Filled w)
    (h : Epoch d w w') (n : String) : Right n w' := by
  obtain ⟨ls, hs, _, hall⟩ := h
  refine end_steps_right D hw ht hf hs ?_
  by_cases hx : ∃ f ∈ w.sets, f.set.name = n
  · obtain ⟨f, hfm, rfl⟩ := hx
    rcases hall f hfm with h | ⟨_, _, h, _⟩
    · exact .inr (.inr h)
    · exact .inr (.inl h)
  · exact .inl fun f hfm hn => absurd ⟨f, hfm, hn⟩ hx

/-- at the end, with statuses up to date: complete, and said to be -/
theorem end_said {d : FDep} {w : World} (hu : Dispatch.Unique w.sets) (h0 : ∀ f ∈ w.sets, 0 ≤ f.set.spec) (hfr : Fresh d w.sets) (ht : Target d w.sets) (hf : Filled w)
    (hr : ∀ n, Right n w) : Complete d w ∧ ∀ now gen, said now gen d w.sets = true := by
  have hend : ∀ f ∈ w.sets, _ := fun f hfm => status_end (h0 f hfm) (end_idle hu hfr ht hfm) (hf f hfm)
  have hx : Exact w w.sets := fun f hfm => by
    obtain ⟨a, b, _⟩ := hend f hfm
    obtain ⟨x, y⟩ := hr f.set.name f hfm rfl
    exact ⟨x.trans a.symm, y.trans b.symm⟩
  have hs : said 0 0 d w.sets = true := by
    refine (said_iff hu 0 0).2 ?_
    obtain ⟨c, hc, hs, hz⟩ := ht
    have hcm := cur_mem hc
    have e1 : w.sets.map (·.status) = w.sets.map (·.set.spec) := List.map_congr_left fun f hfm => (hr _ f hfm rfl).1
    have e2 : w.sets.map (·.set.avail) = w.sets.map (·.set.spec) := List.map_congr_left fun f hfm => (hr _ f hfm rfl).2
    have e3 : (w.sets.map (·.set.spec)).sum = d.spec.replicas := by
      have h1 := wanted_split hu hcm
      have h2 : wanted (others w.sets c.set.name) = 0 := by
        unfold wanted
        rw [List.map_congr_left (g := fun _ => (0 : Int)) fun f hfm => hz f (mem_others.1 hfm).1 (mem_others.1 hfm).2]
        simp
      unfold wanted at h1 h2
      omega
    rw [e1, e2, e3, show ofTemplate d w.sets = some c from hc]
    refine ⟨?_, rfl, rfl⟩
    simp [(hr _ c hcm rfl).1, hs]
  have hcomp := (C142_complete_iff_partial 0 0 d w hu hx).1 hs
  exact ⟨hcomp, fun now gen => (C142_complete_iff_partial now gen d w hu hx).2 hcomp⟩

theorem end_forever {d : FDep} {I : World → Prop} {m : List FSet → Nat} (D : Drives d I m) {s : Nat → World} (hg : Goes d s) {k : Nat} (hI : I (s k)) (ht : Target d (s k).sets)
    (hf : Filled (s k)) : ∀ j, k + 1 ≤ j → ∀ ls w', Steps d (s j) ls w' → Complete d w' ∧ ∀ now gen, said now gen d w'.sets = true := by
  intro j hj ls w' h
  have he := hg.epochs (j - 1 - k) k
  rw [show k + (j - 1 - k) = j - 1 by omega] at he
  obtain ⟨a1, a2, a3⟩ := end_epochs D hI ht hf he
  have hone := hg (j - 1)
  rw [show j - 1 + 1 = j by omega] at hone
  have hr := end_epoch_right D a1 a2 a3 hone
  obtain ⟨ls1, hone, _⟩ := hone
  obtain ⟨b1, b2, b3⟩ := end_steps D a1 a2 a3 hone
  obtain ⟨c1, c2, c3⟩ := end_steps D b1 b2 b3 h
  exact end_said (D.unique c1) (D.nonneg c1) (D.fresh c1) c2 c3 fun n => end_steps_right D b1 b2 b3 h (.inl (hr n))

/-- a rolling update comes to its end -/
theorem rolls_end {d : FDep} (hd : Rolls d) (hsel : d.selectsAll = false) {surge unav : Int} (hsu : scaledValue d.spec.maxSurge d.spec.replicas true = some surge)
    (hun : scaledValue d.spec.maxUnavailable d.spec.replicas false = some unav) (h0 : 0 ≤ surge) (h1 : 0 ≤ unav) {s : Nat → World} (hg : Goes d s) (hw : Open d (s 0)) :
    ∃ k, Ready d (s k) ∧ Target d (s k).sets ∧ Filled (s k) := by
  obtain ⟨j, _, hfr⟩ := becomes_fresh hd.toPlain hg _ 0 hw.toShape hw.start (Nat.le_refl _)
  have hj : Open d (s j) := by
    have := hg.epochs j 0
    rw [Nat.zero_add] at this
    exact epochs_open hw this
  have hr := taken_up hd hsel (by rw [hsu]; rfl) hj hfr (Nat.le_refl _) (hg.epochs _ j)
  obtain ⟨k, hk⟩ := within_some (d := d) hr.none
  exact ⟨_, ends (rolls_drives hd hsel hsu hun h0 h1) hr hk (rolls_measure hd.size.1 hr) (Nat.le_refl _) (hg.epochs _ _)⟩

/-- **C142**: In every fair execution of a rolling update after any history, the time comes from which on the rollout is complete and is reported so, whatever happens next. -/
theorem C142_eventually (d : FDep) (s : Nat → World) (hh : History d (s 0)) (hd : Rolls d) (hsel : d.selectsAll = false) (surge unav : Int)
    (hsu : scaledValue d.spec.maxSurge d.spec.replicas true = some surge) (hun : scaledValue d.spec.maxUnavailable d.spec.replicas false = some unav) (h0 : 0 ≤ surge)
    (h1 : 0 ≤ unav) (hs : ∀ i, Epoch d (s i) (s (i + 1))) :
    ∃ n, ∀ j, n ≤ j → ∀ ls w', Steps d (s j) ls w' → Complete d w' ∧ ∀ now gen, said now gen d w'.sets = true := by
  obtain ⟨k, a, b, c⟩ := rolls_end hd hsel hsu hun h0 h1 hs hh.open
  exact ⟨_, end_forever (rolls_drives hd hsel hsu hun h0 h1) hs a b c⟩

/-- a deployment that recreates comes to its end -/
theorem recreate_end {d : FDep} {s : Nat → World} (hg : Goes d s) (hh : History d (s 0)) (hd : Plain d) (hr : d.spec.strategy = .recreate) (hsel : d.selectsAll = false)
    (hone : Single d (s 0).sets) : ∃ k, Apart d (s k) ∧ Target d (s k).sets ∧ Filled (s k) := by
  obtain ⟨j, _, hfr⟩ := becomes_fresh hd hg _ 0 hh.open.toShape hh.open.start (Nat.le_refl _)
  have he := hg.epochs j 0
  rw [Nat.zero_add] at he
  have hj : Apart d (s j) := ⟨epochs_open hh.open he, single_epochs hd hr hh.open.toShape hone he, hfr⟩
  obtain ⟨k, hk⟩ := within_some (d := d) hj.none
  exact ⟨_, ends (recreate_drives hd hr hsel) hj hk (recreate_measure d _) (Nat.le_refl _) (hg.epochs _ j)⟩

theorem recreate_reported (d : FDep) (s : Nat → World) (hh : History d (s 0)) (hd : Plain d) (hr : d.spec.strategy = .recreate) (hsel : d.selectsAll = false)
    (hone : Single d (s 0).sets) (hs : ∀ i, Epoch d (s i) (s (i + 1))) :
    ∃ n, ∀ j, n ≤ j → ∀ ls w', Steps d (s j) ls w' → Complete d w' ∧ ∀ now gen, said now gen d w'.sets = true := by
  obtain ⟨k, a, b, c⟩ := recreate_end hs hh hd hr hsel hone
  exact ⟨_, end_forever (recreate_drives hd hr hsel) hs a b c⟩

/-- **C142**: The same for a deployment whose strategy is Recreate all the time. -/
theorem C142_recreate (d : FDep) (s : Nat → World) (hh : Recreated d (s 0)) (hp : d.paused = false) (hsel : d.selectsAll = false) (hs : ∀ i, Epoch d (s i) (s (i + 1))) :
    ∃ n, ∀ j, n ≤ j → ∀ ls w', Steps d (s j) ls w' → Complete d w' ∧ ∀ now gen, said now gen d w'.sets = true := by
  obtain ⟨h1, h2, h3⟩ := hh.history
  have hv := h1.open.valid
  exact recreate_reported d s h1 ⟨hp, hv.alive, h3, hv.size, hv.keys, hv.labels⟩ h2 hsel (fun _ => hh.one) hs

/-- in the middle of one rollout the template and the size are changed: a state that is complete, and reported as complete, can be reached -/
example : ∃ n w', Epochs (zDep 3 "v3") n z2 w' ∧ Complete (zDep 3 "v3") w' ∧ said 0 0 (zDep 3 "v3") w'.sets = true := by
  have hh : History (zDep 3 "v3") z2 := z2_history.edit (zDep_valid 3 "v3" (by decide) ⟨by decide, by decide⟩) (fun h => absurd h (by decide))
  obtain ⟨s, e0, hs⟩ := C102_possible (zDep 3 "v3") z2 hh
  obtain ⟨n, hn⟩ := C142_eventually (zDep 3 "v3") s (by rw [e0]; exact hh) ⟨⟨rfl, rfl, rfl, by decide, List.nodup_nil, List.nodup_nil⟩, rfl⟩ rfl 3 0 (by decide +kernel) (by decide +kernel)
    (by decide) (by decide) hs
  have he := Goes.epochs hs n 0
  rw [e0, Nat.zero_add] at he
  obtain ⟨h1, h2⟩ := hn n (Nat.le_refl _) [] _ (.nil _)
  exact ⟨n, s n, he, h1, h2 0 0⟩

end MCM.World
