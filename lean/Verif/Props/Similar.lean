import Verif.Model.Similar
/-!
C44: important status changes are not lost. C57: the provider's last known state is kept.
-/
namespace MCM.Similar
open MCM

/-! ### Specification: edit scripts -/

/-- `Script a b n`: `b` can be obtained from `a` by a left-to-right pass making `n` single-symbol insertions, deletions
and substitutions. -/
inductive Script {α : Type} : List α → List α → Nat → Prop
  | nil : Script [] [] 0
  | keep (x : α) {a b : List α} {n : Nat} : Script a b n → Script (x :: a) (x :: b) n
  | subst (x y : α) {a b : List α} {n : Nat} : Script a b n → Script (x :: a) (y :: b) (n + 1)
  | insert (y : α) {a b : List α} {n : Nat} : Script a b n → Script a (y :: b) (n + 1)
  | delete (x : α) {a b : List α} {n : Nat} : Script a b n → Script (x :: a) b (n + 1)

/-! ### Lemmas -/

section
variable {α : Type} [DecidableEq α]

/-- recursive edit distance (proof device) -/
def ed : List α → List α → Nat
  | [], b => b.length
  | a, [] => a.length
  | x :: a, y :: b => minimum (ed (x :: a) b + 1) (ed a (y :: b) + 1) (ed a b + if x ≠ y then 1 else 0)
termination_by a b => a.length + b.length

theorem minimum_le (a b c : Nat) : minimum a b c ≤ a ∧ minimum a b c ≤ b ∧ minimum a b c ≤ c := by
  unfold minimum; split <;> split <;> omega

theorem minimum_eq (a b c : Nat) : minimum a b c = a ∨ minimum a b c = b ∨ minimum a b c = c := by
  unfold minimum; split <;> split <;> simp

theorem ed_nil_left (b : List α) : ed [] b = b.length := by rw [ed]

theorem ed_nil_right (a : List α) : ed a [] = a.length := by
  cases a with
  | nil => rw [ed]
  | cons x a => rw [ed]; simp

theorem ed_cons (x y : α) (a b : List α) :
    ed (x :: a) (y :: b) = minimum (ed (x :: a) b + 1) (ed a (y :: b) + 1) (ed a b + if x ≠ y then 1 else 0) := by
  rw [ed]

omit [DecidableEq α] in
theorem script_inserts : ∀ b : List α, Script [] b b.length
  | [] => .nil
  | y :: b => .insert y (script_inserts b)

omit [DecidableEq α] in
theorem script_deletes : ∀ a : List α, Script a [] a.length
  | [] => .nil
  | x :: a => .delete x (script_deletes a)

theorem ed_script : ∀ (n : Nat) (a b : List α), a.length + b.length = n → Script a b (ed a b) := by
  intro n
  induction n using Nat.strongRecOn with
  | ind n ih =>
    intro a b h
    cases a with
    | nil => rw [ed_nil_left]; exact script_inserts b
    | cons x a =>
      cases b with
      | nil => rw [ed_nil_right]; exact script_deletes _
      | cons y b =>
        rw [ed_cons]
        simp only [List.length_cons] at h
        rcases minimum_eq (ed (x :: a) b + 1) (ed a (y :: b) + 1) (ed a b + if x ≠ y then 1 else 0) with e | e | e
        · rw [e]; exact .insert y (ih _ (by simp only [List.length_cons]; omega) _ _ rfl)
        · rw [e]; exact .delete x (ih _ (by simp only [List.length_cons]; omega) _ _ rfl)
        · rw [e]
          have hs := ih (a.length + b.length) (by omega) a b rfl
          by_cases hxy : x = y
          · subst hxy; simp only [ne_eq, not_true_eq_false, if_false, Nat.add_zero]; exact .keep x hs
          · rw [if_pos hxy]; exact .subst x y hs

theorem ed_step_left (x : α) : ∀ (a b : List α), ed (x :: a) b ≤ ed a b + 1 := by
  intro a b
  cases b with
  | nil => rw [ed_nil_right, ed_nil_right]; simp
  | cons y b => rw [ed_cons]; exact (minimum_le _ _ _).2.1

theorem ed_step_right (y : α) : ∀ (a b : List α), ed a (y :: b) ≤ ed a b + 1 := by
  intro a b
  cases a with
  | nil => rw [ed_nil_left, ed_nil_left]; simp
  | cons x a => rw [ed_cons]; exact (minimum_le _ _ _).1

theorem ed_le_script {a b : List α} {n : Nat} (h : Script a b n) : ed a b ≤ n := by
  induction h with
  | nil => rw [ed_nil_left]; simp
  | @keep x a b n _ ih =>
    rw [ed_cons]
    have := (minimum_le (ed (x :: a) b + 1) (ed a (x :: b) + 1) (ed a b + if x ≠ x then 1 else 0)).2.2
    simp only [ne_eq, not_true_eq_false, if_false, Nat.add_zero] at this ⊢
    exact Nat.le_trans this ih
  | @subst x y a b n _ ih =>
    rw [ed_cons]
    have := (minimum_le (ed (x :: a) b + 1) (ed a (y :: b) + 1) (ed a b + if x ≠ y then 1 else 0)).2.2
    refine Nat.le_trans this ?_
    split <;> omega
  | @insert y a b n _ ih => exact Nat.le_trans (ed_step_right y a b) (by omega)
  | @delete x a b n _ ih => exact Nat.le_trans (ed_step_left x a b) (by omega)

omit [DecidableEq α] in
theorem script_append {a b c d : List α} {n m : Nat} (h : Script a b n) (k : Script c d m) :
    Script (a ++ c) (b ++ d) (n + m) := by
  induction h with
  | nil => simpa using k
  | keep x _ ih => exact .keep x ih
  | subst x y _ ih => rw [Nat.add_right_comm]; exact .subst x y ih
  | insert y _ ih => rw [Nat.add_right_comm]; exact .insert y ih
  | delete x _ ih => rw [Nat.add_right_comm]; exact .delete x ih

omit [DecidableEq α] in
theorem script_reverse {a b : List α} {n : Nat} (h : Script a b n) : Script a.reverse b.reverse n := by
  induction h with
  | nil => exact .nil
  | keep x _ ih => rw [List.reverse_cons, List.reverse_cons]; exact script_append ih (.keep x .nil)
  | subst x y _ ih => rw [List.reverse_cons, List.reverse_cons]; exact script_append ih (.subst x y .nil)
  | insert y _ ih =>
    rw [List.reverse_cons]
    have := script_append ih (Script.insert y .nil); rwa [List.append_nil] at this
  | delete x _ ih =>
    rw [List.reverse_cons]
    have := script_append ih (Script.delete x .nil); rwa [List.append_nil] at this

/-- the entries of a column belonging to the rest `as` of str1, after the reversed part `q` of it, for reversed prefix `p`
of str2 -/
def colTail (p : List α) : List α → List α → List Nat
  | _, [] => []
  | q, a :: as => ed (a :: q) p :: colTail p (a :: q) as

theorem row_spec (c : α) (p : List α) : ∀ (as q : List α),
    row c as (colTail p q as) (ed q (c :: p)) (ed q p) = colTail (c :: p) q as := by
  intro as
  induction as with
  | nil => intro q; rfl
  | cons a as ih =>
    intro q
    rw [colTail, row, colTail]
    have e : minimum (ed (a :: q) p + 1) (ed q (c :: p) + 1) (ed q p + if a ≠ c then 1 else 0) = ed (a :: q) (c :: p) := by
      rw [ed_cons]
    rw [e, ih]

theorem cols_spec (s1 : List α) : ∀ (s2 p : List α),
    cols s1 s2 (p.length + 1) (colTail p [] s1) p.length =
      (s2.reverse ++ p).length :: colTail (s2.reverse ++ p) [] s1 := by
  intro s2
  induction s2 with
  | nil => intro p; rfl
  | cons b s2 ih =>
    intro p
    rw [cols]
    have h := row_spec b p s1 []
    rw [ed_nil_left, ed_nil_left] at h
    have hl : (b :: p).length = p.length + 1 := rfl
    rw [hl] at h
    rw [show p.length + 1 - 1 = p.length from rfl, h]
    have := ih (b :: p)
    rw [hl] at this
    rw [this]
    simp

theorem colTail_nil (s1 : List α) : ∀ q : List α,
    colTail [] q s1 = (List.range s1.length).map (· + (q.length + 1)) := by
  induction s1 with
  | nil => intro q; rfl
  | cons a s1 ih =>
    intro q
    rw [colTail, ed_nil_right, ih, List.length_cons, List.length_cons, List.range_succ_eq_map, List.map_cons, List.map_map]
    simp only [Nat.zero_add, List.cons.injEq, true_and]
    refine List.map_congr_left fun i _ => ?_
    simp only [Function.comp, Nat.succ_eq_add_one]; omega

theorem colTail_last (p : List α) : ∀ (s1 q : List α),
    (ed q p :: colTail p q s1).getLastD 0 = ed (s1.reverse ++ q) p := by
  intro s1
  induction s1 with
  | nil => intro q; rfl
  | cons a s1 ih =>
    intro q
    rw [colTail]
    have := ih (a :: q)
    rw [List.reverse_cons, List.append_assoc, List.singleton_append]
    rw [← this]; rfl

theorem levenshtein_ed (a b : List α) : levenshtein a b = ed a.reverse b.reverse := by
  unfold levenshtein
  have h := cols_spec a b []
  rw [colTail_nil] at h
  have h0 : (List.range a.length).map (· + (([] : List α).length + 1)) = (List.range a.length).map (· + 1) := rfl
  rw [h0] at h
  have h1 : ([] : List α).length = 0 := rfl
  rw [h1, Nat.zero_add] at h
  rw [h, List.append_nil]
  have := colTail_last b.reverse a []
  rw [ed_nil_left, List.append_nil] at this
  exact this

/-- C44: The text distance computed by the controller is the least number of single-byte edits turning one text into the
other, for all texts. -/
theorem C44_levenshtein (a b : List α) :
    Script a b (levenshtein a b) ∧ ∀ n, Script a b n → levenshtein a b ≤ n := by
  rw [levenshtein_ed]
  refine ⟨?_, fun n h => ed_le_script (script_reverse h)⟩
  have := script_reverse (ed_script _ a.reverse b.reverse rfl)
  simpa using this

end

example : levenshtein "kitten".toList "sitting".toList = 3 := by decide

/-- C44: An update changing the phase, the operation's type, state or error code, or the time-out flag, is always sent to
the API server, and is stored if the server accepts it. -/
theorem C44_important_written (now : Int) (cur new : MStatus)
    (h : new.phase ≠ cur.phase ∨ new.opType ≠ cur.opType ∨ new.state ≠ cur.state ∨ new.errorCode ≠ cur.errorCode ∨
      new.timeoutActive ≠ cur.timeoutActive) :
    statusUpdate now .ok cur new = (some new, 5000, false) := by
  have : isSimilar now new cur = false := by
    unfold isSimilar
    split
    · rfl
    · rcases h with h | h | h | h | h <;> simp [h]
  unfold statusUpdate
  rw [this]; rfl

/-- C44: An update is dropped without an error only if both the stored and the new operation are at most 30 minutes old and
the descriptions are equal or differ by fewer edits than a quarter of their average length (a script with `n` edits and
`8 * n < total length` exists). -/
theorem C44_suppressed_only (now : Int) (api : ApiRes) (cur new : MStatus) (r : Nat)
    (h : statusUpdate now api cur new = (none, r, false)) :
    cur.opTime ≥ now - 30 * 60 * 1000000000 ∧ new.opTime ≥ now - 30 * 60 * 1000000000 ∧
    (new.desc = cur.desc ∨ ∃ n, Script (bytes new.desc) (bytes cur.desc) n ∧
      8 * n < (bytes new.desc).length + (bytes cur.desc).length) := by
  unfold statusUpdate at h
  by_cases hs : isSimilar now new cur = true
  · unfold isSimilar at hs
    split at hs
    · cases hs
    · rename_i ht
      simp only [Bool.or_eq_true, decide_eq_true_eq, not_or] at ht
      unfold tolerance at ht
      simp only [Bool.and_eq_true, Bool.or_eq_true, beq_iff_eq] at hs
      refine ⟨by omega, by omega, ?_⟩
      rcases hs.1.1.1.1.1 with hd | hd
      · right
        unfold textSimilar at hd
        rw [decide_eq_true_eq] at hd
        exact ⟨_, (C44_levenshtein _ _).1, hd⟩
      · exact .inl hd
  · rw [if_neg hs] at h
    cases api <;> simp at h

/-- C44: Once the stored operation is older than 30 minutes every update is sent. -/
theorem C44_forced (now : Int) (cur new : MStatus) (h : cur.opTime < now - 30 * 60 * 1000000000) :
    statusUpdate now .ok cur new = (some new, 5000, false) := by
  have : isSimilar now new cur = false := by
    unfold isSimilar tolerance
    rw [if_pos]
    simp only [Bool.or_eq_true, decide_eq_true_eq]; exact .inr (by omega)
  unfold statusUpdate
  rw [this]; rfl

/-- a repeated provider error with another request id is dropped, one with another code is not -/
example :
    let old : MStatus := { desc := "quota exceeded, request 12",
                           errorCode := "Internal", state := "Failed", opType := "Create", opTime := 100, phase := .crashLoopBackOff }
    let new : MStatus := { old with desc := "quota exceeded, request 13", opTime := 200 }
    statusUpdate 200 .ok old new = (none, 5000, false) ∧
    statusUpdate 200 .ok old { new with errorCode := "ResourceExhausted" } =
      (some { new with errorCode := "ResourceExhausted" }, 5000, false) := by decide +kernel

/-- C57 fails: the state handed back by the provider for later calls (`LastKnownState`) is dropped if the rest of the
status is similar to the stored one, although the call reports success. -/
theorem C57_last_known_state_dropped_false :
    ∃ (now : Int) (cur new : MStatus), new.lastKnownState ≠ cur.lastKnownState ∧
      statusUpdate now .ok cur new = (none, 5000, false) :=
  ⟨200, { desc := "timeout", errorCode := "DeadlineExceeded", opTime := 100, phase := .crashLoopBackOff, lastKnownState := "step 1" },
    { desc := "timeout", errorCode := "DeadlineExceeded", opTime := 200, phase := .crashLoopBackOff, lastKnownState := "step 2" },
    by decide, by decide +kernel⟩

/-- C57, the provable part: the provider's state is stored if the update is accepted and it changes phase, operation type,
state, error code or time-out flag, or the last operation is older than 30 minutes.
Missing from C57: updates repeating the same outcome within 30 minutes (witness above). -/
theorem C57_last_known_state_partial (now : Int) (cur new : MStatus)
    (h : new.phase ≠ cur.phase ∨ new.opType ≠ cur.opType ∨ new.state ≠ cur.state ∨ new.errorCode ≠ cur.errorCode ∨
      new.timeoutActive ≠ cur.timeoutActive ∨ cur.opTime < now - 30 * 60 * 1000000000) :
    ((statusUpdate now .ok cur new).1.map (·.lastKnownState)) = some new.lastKnownState := by
  rcases h with h | h | h | h | h | h
  · rw [C44_important_written now cur new (.inl h)]; rfl
  · rw [C44_important_written now cur new (.inr (.inl h))]; rfl
  · rw [C44_important_written now cur new (.inr (.inr (.inl h)))]; rfl
  · rw [C44_important_written now cur new (.inr (.inr (.inr (.inl h))))]; rfl
  · rw [C44_important_written now cur new (.inr (.inr (.inr (.inr h))))]; rfl
  · rw [C44_forced now cur new h]; rfl

end MCM.Similar
