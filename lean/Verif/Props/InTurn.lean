import Verif.Props.Health
/-!
C130: the unhealthy machines of a deployment are replaced one after the other until none is left; a machine that does not get through its replacement holds up all others.
-/
namespace MCM.InTurn
open MCM.Health

/-! ## Specification -/

/-- the machines of a deployment -/
def mine (d : String) (l : List Mach) : List Mach := l.filter fun m => m.deploy = some d

/-- a machine counts for the size of its set: it has neither failed nor is it terminating -/
def counts (m : Mach) : Bool := m.phase != .failed && m.phase != .terminating

/-- number of machines of a deployment that count -/
def number (d : String) (l : List Mach) : Nat := ((mine d l).filter counts).length

/-- on its way into service -/
def Starting (m : Mach) : Prop := m.phase ≠ .running ∧ m.phase ≠ .unknown ∧ m.phase ≠ .failed ∧ m.phase ≠ .terminating

/-- What happens to the machines of a deployment of size `n` when nothing more goes wrong: machines are marked by the health check, and replaced.
The order is arbitrary. -/
inductive Repair (d : String) (n : Nat) : List Mach → List Mach → Prop
  /-- the health check marks a machine -/
  | mark {l r : List Mach} (m : Mach) : m.deploy = some d → m.phase = .unknown → m.cached = .unknown → canMark (l ++ m :: r) m.deploy = true →
      Repair d n (l ++ m :: r) (l ++ { m with phase := .failed, marked := true, cached := .failed } :: r)
  /-- the machine set controller deletes a failed machine -/
  | terminate {l r : List Mach} (m : Mach) : m.deploy = some d → m.phase = .failed → Repair d n (l ++ m :: r) (l ++ { m with phase := .terminating } :: r)
  /-- a deletion is completed -/
  | gone {l r : List Mach} (m : Mach) : m.deploy = some d → m.phase = .terminating → Repair d n (l ++ m :: r) (l ++ r)
  /-- the machine set controller makes a machine -/
  | new {l : List Mach} (name : String) : number d l < n → Repair d n l ({ name, deploy := some d, phase := .pending, cached := .pending } :: l)
  /-- a machine joins -/
  | join {l r : List Mach} (m : Mach) : m.deploy = some d → Starting m → Repair d n (l ++ m :: r) (l ++ { m with phase := .running } :: r)
  /-- a machine becomes healthy by itself -/
  | recover {l r : List Mach} (m : Mach) : m.deploy = some d → m.phase = .unknown → Repair d n (l ++ m :: r) (l ++ { m with phase := .running } :: r)
  /-- the watch delivers -/
  | watch {l r : List Mach} (m : Mach) : m.deploy = some d → m.cached ≠ m.phase → Repair d n (l ++ m :: r) (l ++ { m with cached := m.phase } :: r)

/-- `k` such steps -/
inductive Repairs (d : String) (n : Nat) : Nat → List Mach → List Mach → Prop
  | refl {l : List Mach} : Repairs d n 0 l l
  | tail {k : Nat} {a b c : List Mach} : Repairs d n k a b → Repair d n b c → Repairs d n (k + 1) a c

/-- nothing is left to do: `n` machines, all of them running, and the cache shows it -/
def Whole (d : String) (n : Nat) (l : List Mach) : Prop := (mine d l).length = n ∧ ∀ m ∈ mine d l, m.phase = .running ∧ m.cached = .running

/-! ## Proofs -/

/-- how far a machine is from its replacement being in service -/
def level : Health.Phase → Nat
  | .running => 0
  | .unknown => 5
  | .failed => 2
  | _ => 1

def val (d : String) (m : Mach) : Nat := if m.deploy = some d then 2 * level m.phase + (if m.cached = m.phase then 0 else 1) else 0

def sum (d : String) (l : List Mach) : Nat := (l.map (val d)).sum

def measure (d : String) (n : Nat) (l : List Mach) : Nat := sum d l + 4 * (n - number d l)

theorem number_append (d : String) (l r : List Mach) (m : Mach) : number d (l ++ m :: r) = number d (l ++ r) + number d [m] := by
  unfold number mine
  simp only [List.filter_append, List.length_append, List.filter_cons]
  split
  · simp only [List.filter_cons]
    split <;> simp <;> omega
  · simp

theorem number_single (d : String) (m : Mach) (h : m.deploy = some d) : number d [m] = if counts m then 1 else 0 := by
  unfold number mine
  rw [List.filter_cons, if_pos (by simp [h])]
  simp only [List.filter_nil, List.filter_cons]
  split <;> rfl

theorem sum_append (d : String) (l r : List Mach) (m : Mach) : sum d (l ++ m :: r) = sum d (l ++ r) + val d m := by
  unfold sum
  simp only [List.map_append, List.map_cons, List.sum_append, List.sum_cons]
  omega

theorem level_starting (m : Mach) (h : Starting m) : level m.phase = 1 := by
  obtain ⟨h1, h2, h3, h4⟩ := h
  generalize m.phase = p at *
  cases p <;> first | rfl | contradiction

theorem counts_starting (m : Mach) (h : Starting m) : counts m = true := by
  unfold counts
  simp [h.2.2.1, h.2.2.2]

/-- every step brings the machines closer -/
theorem measure_lt {d : String} {n : Nat} {l l' : List Mach} (h : Repair d n l l') : measure d n l' < measure d n l := by
  cases h with
  | @mark l r m hd hp hc hk =>
    unfold measure
    rw [sum_append, sum_append, number_append, number_append, number_single d m hd, number_single d _ (by exact hd)]
    have h1 : val d m = 10 := by unfold val; rw [if_pos hd, hp, hc]; rfl
    have h2 : val d { m with phase := .failed, marked := true, cached := .failed } = 4 := by unfold val; rw [if_pos (by exact hd)]; rfl
    have h3 : counts m = true := by unfold counts; rw [hp]; rfl
    have h4 : counts { m with phase := .failed, marked := true, cached := .failed } = false := rfl
    rw [h1, h2, h3, h4]
    simp only [if_true, Bool.false_eq_true, if_false]
    omega
  | @terminate l r m hd hp =>
    unfold measure
    rw [sum_append, sum_append, number_append, number_append, number_single d m hd, number_single d _ (by exact hd)]
    have h1 : 4 ≤ val d m := by unfold val; rw [if_pos hd, hp]; exact Nat.le_add_right _ _
    have h2 : val d { m with phase := .terminating } ≤ 3 := by
      unfold val; rw [if_pos (by exact hd)]
      show 2 * 1 + _ ≤ 3
      split <;> omega
    have h3 : counts m = false := by unfold counts; rw [hp]; rfl
    have h4 : counts { m with phase := .terminating } = false := rfl
    rw [h3, h4]
    omega
  | @gone l r m hd hp =>
    unfold measure
    rw [sum_append, number_append, number_single d m hd]
    have h1 : 2 ≤ val d m := by unfold val; rw [if_pos hd, hp]; exact Nat.le_add_right _ _
    have h3 : counts m = false := by unfold counts; rw [hp]; rfl
    rw [h3]
    simp only [Bool.false_eq_true, if_false]
    omega
  | new name hn =>
    unfold measure
    have e1 := sum_append d [] l { name, deploy := some d, phase := .pending, cached := .pending }
    have e2 := number_append d [] l { name, deploy := some d, phase := .pending, cached := .pending }
    rw [List.nil_append, List.nil_append] at e1 e2
    rw [e1, e2, number_single d _ rfl]
    have h1 : val d { name, deploy := some d, phase := .pending, cached := .pending } = 2 := by unfold val; rw [if_pos rfl]; rfl
    have h2 : counts { name, deploy := some d, phase := .pending, cached := .pending } = true := rfl
    rw [h1, h2]
    simp only [if_true]
    omega
  | @join l r m hd hs =>
    unfold measure
    rw [sum_append, sum_append, number_append, number_append, number_single d m hd, number_single d _ (by exact hd)]
    have h1 : 2 ≤ val d m := by unfold val; rw [if_pos hd, level_starting m hs]; exact Nat.le_add_right _ _
    have h2 : val d { m with phase := .running } ≤ 1 := by
      unfold val; rw [if_pos (by exact hd)]
      show 2 * 0 + _ ≤ 1
      split <;> omega
    have h4 : counts { m with phase := .running } = true := rfl
    rw [counts_starting m hs, h4]
    omega
  | @recover l r m hd hp =>
    unfold measure
    rw [sum_append, sum_append, number_append, number_append, number_single d m hd, number_single d _ (by exact hd)]
    have h1 : 10 ≤ val d m := by unfold val; rw [if_pos hd, hp]; exact Nat.le_add_right _ _
    have h2 : val d { m with phase := .running } ≤ 1 := by
      unfold val; rw [if_pos (by exact hd)]
      show 2 * 0 + _ ≤ 1
      split <;> omega
    have h3 : counts m = true := by unfold counts; rw [hp]; rfl
    have h4 : counts { m with phase := .running } = true := rfl
    rw [h3, h4]
    omega
  | @watch l r m hd hc =>
    unfold measure
    rw [sum_append, sum_append, number_append, number_append, number_single d m hd, number_single d _ (by exact hd)]
    have h1 : val d m = 2 * level m.phase + 1 := by unfold val; rw [if_pos hd, if_neg hc]
    have h2 : val d { m with cached := m.phase } = 2 * level m.phase := by unfold val; rw [if_pos (by exact hd), if_pos rfl]; rfl
    have h4 : counts { m with cached := m.phase } = counts m := rfl
    rw [h1, h2, h4]
    omega

theorem measure_le {d : String} {n : Nat} (l : List Mach) : measure d n l ≤ 11 * (mine d l).length + 4 * n := by
  have h : sum d l ≤ 11 * (mine d l).length := by
    unfold sum mine
    induction l with
    | nil => simp
    | cons m l ih =>
      rw [List.map_cons, List.sum_cons, List.filter_cons]
      by_cases hd : m.deploy = some d
      · have hv : val d m ≤ 11 := by
          unfold val
          rw [if_pos hd]
          have : level m.phase ≤ 5 := by cases m.phase <;> decide
          split <;> omega
        rw [if_pos (by simp [hd]), List.length_cons]
        omega
      · have hv : val d m = 0 := if_neg hd
        rw [if_neg (by simp [hd])]
        omega
  unfold measure
  omega

/-- the steps are steps of the model -/
theorem repair_step {d : String} {n : Nat} {l l' : List Mach} (hs : Seen l) (h : Repair d n l l') : Step true l l' := by
  cases h with
  | mark m hd hp hc hk => exact Step.mark m true hc hp hk fun _ => rfl
  | terminate m hd hp => exact Step.terminate m
  | gone m hd hp => exact Step.gone m
  | new name hn => exact Step.new name (some d) .pending
  | @join l r m hd hst =>
    refine Step.other m .running ?_
    cases hm : m.marked
    · rfl
    · rcases (hs m (List.mem_append_right _ List.mem_cons_self) hm).1 with h | h
      · exact absurd h hst.2.2.1
      · exact absurd h hst.2.2.2
  | @recover l r m hd hp =>
    refine Step.other m .running ?_
    cases hm : m.marked
    · rfl
    · rcases (hs m (List.mem_append_right _ List.mem_cons_self) hm).1 with h | h <;> (rw [hp] at h; cases h)
  | watch m hd hc => exact Step.watch m

theorem reach_seen {l : List Mach} (h : Reach true l) : Seen l ∧ ∀ d, marked l d ≤ 1 := by
  induction h with
  | start => exact ⟨fun _ h => (nomatch h), fun _ => Nat.zero_le _⟩
  | step _ hs ih => exact inv_step hs ih.1 ih.2

theorem number_le {d : String} {n : Nat} {l l' : List Mach} (h : Repair d n l l') (hl : number d l ≤ n) : number d l' ≤ n := by
  cases h with
  | @mark l r m hd hp hc hk =>
    rw [number_append] at hl ⊢
    rw [number_single d _ (by exact hd)]
    have h4 : counts { m with phase := .failed, marked := true, cached := .failed } = false := rfl
    rw [h4]
    simp only [Bool.false_eq_true, if_false]
    omega
  | @terminate l r m hd hp =>
    rw [number_append] at hl ⊢
    rw [number_single d _ (by exact hd)]
    have h4 : counts { m with phase := .terminating } = false := rfl
    rw [h4]
    simp only [Bool.false_eq_true, if_false]
    omega
  | @gone l r m hd hp => rw [number_append] at hl; omega
  | new name hn =>
    have e2 := number_append d [] l { name, deploy := some d, phase := .pending, cached := .pending }
    rw [List.nil_append, List.nil_append] at e2
    rw [e2, number_single d _ rfl]
    have h2 : counts { name, deploy := some d, phase := .pending, cached := .pending } = true := rfl
    rw [h2]
    simp only [if_true]
    omega
  | @join l r m hd hs =>
    rw [number_append] at hl ⊢
    rw [number_single d _ (by exact hd)] at hl ⊢
    rw [counts_starting m hs] at hl
    exact hl
  | @recover l r m hd hp =>
    rw [number_append] at hl ⊢
    rw [number_single d _ (by exact hd)] at hl ⊢
    have h3 : counts m = true := by unfold counts; rw [hp]; rfl
    rw [h3] at hl
    exact hl
  | @watch l r m hd hc =>
    rw [number_append] at hl ⊢
    rw [number_single d _ (by exact hd)] at hl ⊢
    exact hl

theorem mem_split {m : Mach} {l : List Mach} (h : m ∈ l) : ∃ a b, l = a ++ m :: b := List.append_of_mem h

/-- there is always a next step until all is done -/
theorem progress {d : String} {n : Nat} {l : List Mach} (hl : number d l ≤ n) (hstuck : ¬ ∃ l', Repair d n l l') : Whole d n l := by
  have hmem : ∀ m ∈ mine d l, m ∈ l ∧ m.deploy = some d := fun m hm => by
    obtain ⟨h1, h2⟩ := List.mem_filter.1 hm
    exact ⟨h1, by simpa using h2⟩
  have hsync : ∀ m ∈ mine d l, m.cached = m.phase := by
    intro m hm
    obtain ⟨h1, h2⟩ := hmem m hm
    obtain ⟨a, b, rfl⟩ := mem_split h1
    exact Decidable.byContradiction fun hc => hstuck ⟨_, .watch m h2 hc⟩
  have hph : ∀ m ∈ mine d l, m.phase = .running ∨ m.phase = .unknown := by
    intro m hm
    obtain ⟨h1, h2⟩ := hmem m hm
    obtain ⟨a, b, rfl⟩ := mem_split h1
    by_cases h3 : m.phase = .failed
    · exact absurd ⟨_, .terminate m h2 h3⟩ hstuck
    by_cases h4 : m.phase = .terminating
    · exact absurd ⟨_, .gone m h2 h4⟩ hstuck
    by_cases h5 : m.phase = .running
    · exact Or.inl h5
    by_cases h6 : m.phase = .unknown
    · exact Or.inr h6
    exact absurd ⟨_, .join m h2 ⟨h5, h6, h3, h4⟩⟩ hstuck
  have hcalm : Calm l d := by
    intro m hm hd
    have hin : m ∈ mine d l := List.mem_filter.2 ⟨hm, by simp [hd]⟩
    rw [hsync m hin]
    exact hph m hin
  have hrun : ∀ m ∈ mine d l, m.phase = .running := by
    intro m hm
    obtain ⟨h1, h2⟩ := hmem m hm
    rcases hph m hm with h | h
    · exact h
    · exfalso
      have hc := hsync m hm
      obtain ⟨a, b, rfl⟩ := mem_split h1
      exact hstuck ⟨_, .mark m h2 h (hc.trans h) (by rw [h2]; exact (C31_test _ _).2 hcalm)⟩
  have hnum : number d l = (mine d l).length := by
    unfold number
    rw [List.filter_eq_self.2]
    intro m hm
    unfold counts
    rw [hrun m hm]; rfl
  refine ⟨?_, fun m hm => ⟨hrun m hm, (hsync m hm).trans (hrun m hm)⟩⟩
  by_cases h : number d l < n
  · exact absurd ⟨_, .new "" h⟩ hstuck
  · omega

/-- **C130** (partial: nothing more goes wrong, deletions and creations come to their end): Whatever has happened before and in whatever order things happen, after at most
`11 m + 4 n` steps – `m` machines now, `n` wanted – nothing is left to do, and then the deployment has `n` machines, all of them running. At no moment more than one machine
is being replaced because of the health check (`C31_one_at_a_time_partial`). -/
theorem C130_in_turn_partial {d : String} {n k : Nat} {l l' : List Mach} (hr : Reach true l) (hl : number d l ≤ n) (h : Repairs d n k l l') :
    Reach true l' ∧ k ≤ 11 * (mine d l).length + 4 * n ∧ marked l' d ≤ 1 ∧ ((¬ ∃ l'', Repair d n l' l'') → Whole d n l') := by
  have hall : Reach true l' ∧ number d l' ≤ n ∧ k + measure d n l' ≤ measure d n l := by
    induction h with
    | refl => exact ⟨hr, hl, by omega⟩
    | @tail k a b c _ st ih =>
      obtain ⟨h1, h2, h3⟩ := ih hr hl
      have hseen : Seen b := (reach_seen h1).1
      have := measure_lt st
      exact ⟨.step h1 (repair_step hseen st), number_le st h2, by omega⟩
  obtain ⟨h1, h2, h3⟩ := hall
  have := measure_le (d := d) (n := n) l
  exact ⟨h1, by omega, C31_one_at_a_time_partial _ h1 d, progress h2⟩

/-- a machine of the deployment is in no phase but `Running` and `Unknown`, as the cache shows it -/
def Held (d : String) (l : List Mach) : Prop := ∃ x ∈ l, x.deploy = some d ∧ x.cached ≠ .running ∧ x.cached ≠ .unknown

/-- executions all through which some machine of the deployment is on its way in or out -/
inductive Holding (d : String) : List Mach → List Mach → Prop
  | refl {l : List Mach} : Holding d l l
  | tail {a b c : List Mach} : Holding d a b → Held d b → Step true b c → Holding d a c

/-- **C130**: As long as a machine of the deployment is on its way in or out of service, no unhealthy machine of the deployment is marked, however many there are and however
long that takes. -/
theorem C130_held {d : String} {l l' : List Mach} (h : Holding d l l') : marked l' d ≤ marked l d := by
  induction h with
  | refl => exact Nat.le_refl _
  | @tail b c _ hh st ih =>
    refine Nat.le_trans ?_ ih
    obtain ⟨x, hx, hd, h1, h2⟩ := hh
    have hle : ∀ (l r : List Mach) (m m' : Mach), (m'.marked = true → m.marked = true) → m'.deploy = m.deploy → marked (l ++ m' :: r) d ≤ marked (l ++ m :: r) d := by
      intro l r m m' hm hdep
      rw [marked_append, marked_append l r m, marked_single, marked_single, hdep]
      by_cases h : m'.marked = true ∧ m.deploy = some d
      · rw [if_pos h, if_pos ⟨hm h.1, h.2⟩]; omega
      · rw [if_neg h]; omega
    cases st with
    | @mark l r m synced hc hp hk hs =>
      by_cases hmd : m.deploy = some d
      · rw [hmd] at hk
        rcases (C31_test _ _).1 hk x hx hd with h | h
        · exact absurd h h1
        · exact absurd h h2
      · rw [marked_append, marked_append l r m, marked_single, marked_single, if_neg (fun h => hmd h.2), if_neg (fun h => hmd h.2)]
        omega
    | terminate m => exact hle _ _ _ _ (fun h => h) rfl
    | other m p hm => exact hle _ _ _ _ (fun h => h) rfl
    | revive m => exact hle _ _ _ _ (fun h => nomatch h) rfl
    | watch m => exact hle _ _ _ _ (fun h => h) rfl
    | gone m => rw [marked_append]; omega
    | new name deploy p =>
      have := marked_append [] b { name, deploy, phase := p, cached := p } d
      rw [List.nil_append, List.nil_append, marked_single, if_neg (fun h => nomatch h.1)] at this
      omega

/-- **C130 is false of the code**: that an unhealthy machine is replaced sooner or later whatever becomes of the others. A machine whose VM cannot be deleted stays terminating,
and no execution in which it stays so gives up the other one. -/
theorem C130_stuck_machine_false : ¬ ∀ (d : String) (l : List Mach), Reach true l → (∃ m ∈ l, m.deploy = some d ∧ m.phase = .unknown ∧ m.cached = .unknown) →
    ∃ l', Holding d l l' ∧ marked l d < marked l' d := by
  intro h
  have r1 := Reach.step (Reach.start (allSynced := true)) (Step.new "a" (some "d") .terminating)
  have r2 := Reach.step r1 (Step.new "b" (some "d") .unknown)
  obtain ⟨l', h1, h2⟩ := h "d" _ r2 ⟨_, List.mem_cons_self, rfl, rfl, rfl⟩
  have := C130_held h1
  omega

/-- two unhealthy machines: the first steps of their replacement -/
example : ∃ l l', Reach true l ∧ number "d" l ≤ 2 ∧ Repairs "d" 2 3 l l' ∧ ∃ m ∈ l', m.phase = .terminating := by
  have r1 := Reach.step (Reach.start (allSynced := true)) (Step.new "a" (some "d") .unknown)
  have r2 := Reach.step r1 (Step.new "b" (some "d") .unknown)
  have s1 := Repair.mark (d := "d") (n := 2) (l := []) (r := [⟨"a", some "d", .unknown, .unknown, false⟩]) ⟨"b", some "d", .unknown, .unknown, false⟩ rfl rfl rfl (by decide)
  have s2 := Repair.terminate (d := "d") (n := 2) (l := []) (r := [⟨"a", some "d", .unknown, .unknown, false⟩]) ⟨"b", some "d", .failed, .failed, true⟩ rfl rfl
  have s3 := Repair.new (d := "d") (n := 2) (l := [⟨"b", some "d", .terminating, .failed, true⟩, ⟨"a", some "d", .unknown, .unknown, false⟩]) "c" (by decide)
  exact ⟨_, _, r2, by decide, .tail (.tail (.tail .refl s1) s2) s3, _, List.mem_cons_of_mem _ List.mem_cons_self, rfl⟩

/-- and the end -/
example : Whole "d" 2 [⟨"a", some "d", .running, .running, false⟩, ⟨"x", none, .unknown, .unknown, false⟩, ⟨"b", some "d", .running, .running, false⟩] := by
  unfold Whole; decide

end MCM.InTurn
